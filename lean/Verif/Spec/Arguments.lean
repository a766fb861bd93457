import Verif.Spec.Statements
import Verif.Spec.Grammar

/-!
# Argument lists and the comments in them
-/

namespace Verif.Format
open Verif.Syntax

/-- The arguments of a call or a subset (`call`), or the parameters of a function. -/
structure ArgList where
  call : Bool
  left : Token
  items : Items
  right : Token

mutual
/-- All argument lists in an expression. -/
def Expr.lists : Expr → List ArgList
  | .atom .. | .str .. => []
  | .paren _ _ e _ => e.lists
  | .braced _ _ es _ => es.lists
  | .unary _ _ e => e.lists
  | .binary _ x _ y => x.lists ++ y.lists
  | .sel _ _ x _ y => x.lists ++ y.lists
  | .call _ _ f _ l items r => f.lists ++ ⟨true, l, items, r⟩ :: items.lists
  | .func _ _ _ l items r b => ⟨false, l, items, r⟩ :: (items.lists ++ b.lists)
  | .ite _ _ _ c _ t => c.lists ++ t.lists
  | .itee _ _ _ c _ t _ _ e => c.lists ++ (t.lists ++ e.lists)
  | .for_ _ _ _ v _ s _ b => v.lists ++ (s.lists ++ b.lists)
  | .while_ _ _ _ c _ b => c.lists ++ b.lists
  | .repeat_ _ _ b => b.lists
def Exprs.lists : Exprs → List ArgList
  | .nil => []
  | .cons e es => e.lists ++ es.lists
def Items.lists : Items → List ArgList
  | .nil => []
  | .last x => x.lists
  | .cons x _ xs => x.lists ++ xs.lists
def Arg.lists : Arg → List ArgList
  | .hole _ => []
  | .val _ e => e.lists
  | .name _ _ n _ => n.lists
  | .named _ _ n _ e => n.lists ++ e.lists
  | .pdef _ n _ _ e => n.lists ++ e.lists
end

/-- An argument, the comments that go before it and those that go after it. -/
structure Seat where
  arg : Arg
  ahead : List (List Byte)
  behind : List (List Byte)

/-- More comments before the first argument. -/
def aheadFirst (cs : List (List Byte)) : List Seat → List Seat
  | [] => []
  | s :: ss => ⟨s.arg, cs ++ s.ahead, s.behind⟩ :: ss

/-- Comments `ps` before the argument `x`: those that go after the argument before it, and those that go before `x`. The
argument before `x`: there is none, it was left out (`some true`), or is there (`some false`). After an argument go the
comments at the end of its line; if `x` is left out, all. -/
def divide (p : Option Bool) (x : Arg) (ps : List Piece) : List (List Byte) × List (List Byte) :=
  match p with
  | some false => if x.isHole then (commentTexts ps, []) else (lineComments ps, laterComments ps)
  | _ => ([], commentTexts ps)

/-- The trivia before an argument; if it is left out all up to the next separator `s`. -/
def Arg.triviaBefore (x : Arg) (s : Token) : List Piece :=
  if x.isHole then s.leading else Format.triviaBefore x.tokens

/-- The comments between an argument and the separator or closing parenthesis: those that stay with the argument, and
those on lines of their own, which go to the next argument. -/
def Arg.beyond (x : Arg) (last : Bool) (s : Token) : List (List Byte) × List (List Byte) :=
  if x.isHole then ([], [])
  else if last then (commentTexts (triviaAfter x.tokens ++ s.leading), [])
  else (lineComments (triviaAfter x.tokens ++ s.leading), laterComments (triviaAfter x.tokens ++ s.leading))

/-- Where the comments of an argument list go; the first component: after the argument before. `prev`: trivia of the
separator or opening parenthesis before; `r`: the closing parenthesis. -/
def Items.seats (p : Option Bool) (prev : List Piece) (r : Token) : Items → List (List Byte) × List Seat
  | .nil => ([], [])
  | .last x =>
    let d := divide p x (prev ++ x.triviaBefore r)
    (d.1, [⟨x, d.2, (x.beyond true r).1⟩])
  | .cons x s xs =>
    let d := divide p x (prev ++ x.triviaBefore s)
    let rest := xs.seats (some x.isHole) s.trailing r
    (d.1, ⟨x, d.2, (x.beyond false s).1 ++ rest.1⟩ :: aheadFirst (x.beyond false s).2 rest.2)

/-- The arguments of a list with their comments. -/
def ArgList.seats (k : ArgList) : List Seat := (k.items.seats none k.left.trailing k.right).2

/-- The comments between arguments: before the first one, between it and the second one and so on, and after the last one.
`acc`: since the last argument. -/
def Items.gaps (acc : List (List Byte)) (prev : List Piece) (r : Token) : Items → List (List (List Byte))
  | .nil => [acc ++ commentTexts (prev ++ r.leading)]
  | .last x =>
    if x.isHole then [acc ++ commentTexts (prev ++ r.leading), []]
    else [acc ++ commentTexts (prev ++ Format.triviaBefore x.tokens), commentTexts (triviaAfter x.tokens ++ r.leading)]
  | .cons x s xs =>
    if x.isHole then (acc ++ commentTexts (prev ++ s.leading)) :: xs.gaps [] s.trailing r
    else (acc ++ commentTexts (prev ++ Format.triviaBefore x.tokens)) ::
      xs.gaps (commentTexts (triviaAfter x.tokens ++ s.leading)) s.trailing r

/-- The arguments `xs` have tokens and comments as in the seats. -/
def Seated : List Seat → List Arg → Prop
  | [], [] => True
  | s :: ss, x :: xs => (x.tokens = s.arg.tokens ∧ texts x.ann.leading = s.ahead ∧ texts x.ann.trailing = s.behind ∧
      (texts x.comments).Perm (s.ahead ++ commentTexts (innerTrivia s.arg.tokens) ++ s.behind)) ∧ Seated ss xs
  | _, _ => False

/-- The lists correspond one by one. -/
def Both (R : ArgList → ArgList → Prop) : List ArgList → List ArgList → Prop
  | [], [] => True
  | k :: ks, k' :: ks' => (k'.call = k.call ∧ k'.left = k.left ∧ k'.right = k.right ∧ R k k') ∧ Both R ks ks'
  | _, _ => False

/-- The comments of the list are seated. -/
def SeatedList (k k' : ArgList) : Prop := k.items.args ≠ [] → Seated k.seats k'.items.args

/-- The arguments `ys` have the tokens of the arguments `xs`; the comments `gs` before, between and after the arguments are
attached to one of the two neighbours; all other comments are inside of the same argument as before. `b`: comments of the
argument before. -/
def Shared (b : List (List Byte)) : List Arg → List Arg → List (List (List Byte)) → Prop
  | [], [], [g] => b.Perm g
  | x :: xs, y :: ys, g :: gs => (y.tokens = x.tokens ∧ (b ++ texts y.ann.leading).Perm g ∧
      (texts y.comments).Perm (texts y.ann.leading ++ commentTexts (innerTrivia x.tokens) ++ texts y.ann.trailing)) ∧
      Shared (texts y.ann.trailing) xs ys gs
  | _, _, _ => False

/-- No comment of the list passes an argument. -/
def SharedList (k k' : ArgList) : Prop :=
  k.items.args ≠ [] → Shared [] k.items.args k'.items.args (k.items.gaps [] k.left.trailing k.right)

/-- Between two of the tokens comments end at line breaks, as they do in R. -/
def commentsEnd : List Token → Prop
  | [] => True
  | [_] => True
  | t :: u :: ts => (commentTexts (t.trailing ++ u.leading) ≠ [] →
      (t.trailing ++ u.leading).any (fun p => p.kind == .newline) = true) ∧ commentsEnd (u :: ts)

end Verif.Format
