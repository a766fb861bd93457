import Verif.Spec.Format
import Verif.Spec.Calm
import Verif.Model.Placement

/-!
# Every comment once: conditions on trees with comments

* `Proper`: comments are only attached where the rules print them. Comment placement always produces such
  trees (Verif.Lemmas.PlacementProper).
* `Verbs`: what is printed for nodes that are kept as written contains each comment once.
-/

namespace Verif.Format
open Verif.Syntax

/-- Texts of comments. -/
def texts (cs : List Comment) : List (List Byte) := cs.map Comment.text

/-- Texts of the comments in trivia. -/
def commentTexts (ps : List Piece) : List (List Byte) :=
  (ps.filter (fun p => p.kind == .comment)).map Piece.text

/-- The comments of a file, in source order. -/
def Root.sourceComments (x : Root) : List (List Byte) :=
  commentTexts (x.es.tokens.flatMap (fun t => t.leading ++ t.trailing) ++ x.eof.leading)

mutual
/-- Comments are attached only where the rules print them. -/
def Expr.Proper : Expr → Prop
  | .atom .. | .str .. => True
  | .paren _ _ e _ => e.Proper
  | .braced a _ es _ => (es ≠ .nil → a.dangling = []) ∧ es.Proper
  | .unary _ _ e => e.Proper
  | .binary _ x _ y =>
    (∀ a x' p y', x = .binary a x' p y' → a.leading = [] ∧ a.dangling = []) ∧ x.Proper ∧ y.Proper
  | .sel _ _ x _ y => x.Proper ∧ y.Proper
  | .call _ _ f aa _ items _ =>
    (items ≠ .nil → aa.dangling = []) ∧ aa.trailing = [] ∧ f.Proper ∧ items.Proper
  | .func _ _ pa _ items _ b => (items ≠ .nil → pa.dangling = []) ∧ items.Proper ∧ b.Proper
  | .ite _ _ _ c _ t => c.Proper ∧ t.Proper
  | .itee _ _ _ c _ t _ _ e => c.Proper ∧ t.Proper ∧ e.Proper
  | .for_ _ _ _ v _ s _ b => v.Proper ∧ s.Proper ∧ b.Proper
  | .while_ _ _ _ c _ b => c.Proper ∧ b.Proper
  | .repeat_ _ _ b => b.Proper
def Exprs.Proper : Exprs → Prop
  | .nil => True
  | .cons e es => e.Proper ∧ es.Proper
def Items.Proper : Items → Prop
  | .nil => True
  | .last x => x.Proper
  | .cons x _ xs => x.Proper ∧ xs.Proper
def Arg.Proper : Arg → Prop
  | .hole a => a.dangling = []
  | .val a e => a.dangling = [] ∧ e.Proper
  | .name a _ n _ => a.dangling = [] ∧ n.Proper
  | .named a _ n _ e => a.dangling = [] ∧ n.Proper ∧ e.Proper
  | .pdef a n _ _ e => a.dangling = [] ∧ n.Proper ∧ e.Proper
end

/-- What is printed for a node that is kept as written – leading comments before it, its source text,
trailing comments after it – contains each of the comments `cs` once. -/
def VerbOk (a : Ann) (ts : List Token) (cs : List Comment) : Prop :=
  (texts (a.leading.takeWhile (fun c => !c.within)) ++ commentTexts (innerTrivia ts) ++
    texts (a.trailing.dropWhile Comment.within)).Perm (texts cs)

/-- The node is kept as written; depends on what its parent is only through `dir` and `chain`. -/
def keptAt (o : Opts) (dir chain : Bool) (e : Expr) : Bool := kept o { dir := dir, chain := chain } e

/-- The call is printed as a table. -/
def tableAt (o : Opts) (dir : Bool) (tb : Option Bool) (a : Ann) (k : CallKind) (f : Expr) : Bool :=
  isTable o { dir := dir, table := tb } a k f

/-- A node that is kept has all its comments once, otherwise `P`. -/
def KeptOr (o : Opts) (dir chain : Bool) (e : Expr) (P : Prop) : Prop :=
  if keptAt o dir chain e then VerbOk e.ann e.tokens e.comments else P

mutual
/-- Every node kept as written has all its comments once. -/
def Verbs (o : Opts) (dir chain : Bool) (tb : Option Bool) : Expr → Prop
  | .atom a k t => KeptOr o dir chain (.atom a k t) True
  | .str a p c l => KeptOr o dir chain (.str a p c l) True
  | .paren a l e r => KeptOr o dir chain (.paren a l e r) (Verbs o false false none e)
  | .braced a l es r => KeptOr o dir chain (.braced a l es r) (VerbsL o es)
  | .unary a p e => KeptOr o dir chain (.unary a p e) (Verbs o false false none e)
  | .binary a x p y => KeptOr o dir chain (.binary a x p y)
      (Verbs o true (isChainOp p.kind) none x ∧
        Verbs o true false
          (if isAssignOp p.kind && hasDirective o dir a .table then some true else none) y)
  | .sel a k x p y => KeptOr o dir chain (.sel a k x p y)
      (Verbs o false false none x ∧ Verbs o false false none y)
  | .call a k f aa l items r => KeptOr o dir chain (.call a k f aa l items r)
      (Verbs o false false none f ∧ VerbsI o true items ∧
        (tableAt o dir tb a k f = true → items ≠ .nil →
          aa.leading = [] ∧ VerbOk aa (l :: (items.tokens ++ [r])) (aa.all ++ items.comments)))
  | .func a kw pa l items r b => KeptOr o dir chain (.func a kw pa l items r b)
      (VerbsI o false items ∧ Verbs o false false none b)
  | .ite a kw l c r t => KeptOr o dir chain (.ite a kw l c r t)
      (Verbs o false false none c ∧ Verbs o false false none t)
  | .itee a kw l c r t ea el e => KeptOr o dir chain (.itee a kw l c r t ea el e)
      (Verbs o false false none c ∧ Verbs o false false none t ∧ Verbs o false false none e)
  | .for_ a kw l v i s r b => KeptOr o dir chain (.for_ a kw l v i s r b)
      (Verbs o false false none v ∧ Verbs o false false none s ∧ Verbs o false false none b)
  | .while_ a kw l c r b => KeptOr o dir chain (.while_ a kw l c r b)
      (Verbs o false false none c ∧ Verbs o false false none b)
  | .repeat_ a kw b => KeptOr o dir chain (.repeat_ a kw b) (Verbs o false false none b)
def VerbsL (o : Opts) : Exprs → Prop
  | .nil => True
  | .cons e es => Verbs o true false none e ∧ VerbsL o es
/-- Arguments (`dir`) or parameters. -/
def VerbsI (o : Opts) (dir : Bool) : Items → Prop
  | .nil => True
  | .last x => VerbsA o dir x
  | .cons x _ xs => VerbsA o dir x ∧ VerbsI o dir xs
def VerbsA (o : Opts) (dir : Bool) : Arg → Prop
  | .hole a => hasDirective o dir a .skip = true → VerbOk a [] a.all
  | .val a e =>
    (hasDirective o dir a .skip = true → VerbOk a e.tokens (Arg.comments (.val a e))) ∧
    Verbs o false false none e
  | .name a na n q =>
    (hasDirective o dir a .skip = true →
      VerbOk a (Arg.tokens (.name a na n q)) (Arg.comments (.name a na n q))) ∧
    Verbs o false false none n
  | .named a na n q e =>
    (hasDirective o dir a .skip = true →
      VerbOk a (Arg.tokens (.named a na n q e)) (Arg.comments (.named a na n q e))) ∧
    Verbs o false false none n ∧ Verbs o false false none e
  | .pdef a n da q e =>
    (hasDirective o dir a .skip = true →
      VerbOk a (Arg.tokens (.pdef a n da q e)) (Arg.comments (.pdef a n da q e))) ∧
    Verbs o false false none n ∧ Verbs o false false none e
end

/-! ## Conditions on comments in the source -/

/-- The node with the given reference. -/
def View.nodeAt : View → Ref → Option View
  | x, [] => some x
  | x, i :: q =>
    match x.parts.slot i with
    | some y => y.nodeAt q
    | none => none

/-- The comment leads a node although it stands after its beginning, and not inside of it: a comment at
the end of the line before `else` leads the first expression in the braces before it, and a comment after
a comma may lead the hole before it. -/
def Deco.late (d : Deco) : Bool :=
  (placeComment d).place == .leading && !d.precedes (placeComment d).target &&
    !(placeComment d).target.isPrefixOf d.ref

/-- A table may be asked for in the file. -/
def TableAsked (o : Opts) (D : List Deco) : Prop :=
  (∃ n, o.table n = true) ∨ ∃ d ∈ D, o.directive d.text = some .table

/-- Comments are at none of the places where they get lost or duplicated:
* `skip`: nodes that are led by late comments are not kept as written
* `table`: the arguments of a call are not led by a comment, if tables are asked for -/
structure Spared (o : Opts) (X : View) (D : List Deco) : Prop where
  skip : ∀ d ∈ D, d.late = true →
    (annAt (D.map Deco.placed) (placeComment d).target).asks o .skip = false ∧
    ∀ z, X.nodeAt (placeComment d).target = some z → z.kind = .rCall → ∀ n, o.skip n = false
  table : TableAsked o D → ∀ d ∈ D, (placeComment d).place = .leading →
    ∀ z, X.nodeAt (placeComment d).target = some z → z.kind ≠ .rCallArguments

end Verif.Format
