import Verif.Model.FormatRules

/-!
# What formatting may and may not change

* `shape`: the tokens of an expression in order, each with whether a line break may, must or must
  not separate it from the previous token, so that R reads the tokens as this expression.
* `Fits`: a sequence of tokens with line breaks respects a shape.
* `Rew`: how the formatter may rewrite an expression: braces around bodies and the choice between
  `<-` and `=`.
* `Tame`: the (mild) conditions on comments under which formatting keeps the program; each of them
  is shown to be necessary by a counterexample in Verif.Props.Format.
-/

namespace Verif.Format
open Verif.Syntax

/-- Where an expression stands: at top level, directly inside braces, or inside parentheses or
brackets. R ignores line breaks only inside parentheses and brackets. -/
inductive Region | top | brace | paren
  deriving DecidableEq, Repr

/-- Whether a line break separates a token from the previous one: it may, it must not, it must. -/
inductive Pos | free | forbid | need
  deriving DecidableEq, Repr

/-- Before an operator, an argument list or a subscript. -/
def Region.op : Region → Pos
  | .paren => .free
  | _ => .forbid

/-- Before `else`: at top level the statement would be over. -/
def Region.els : Region → Pos
  | .top => .forbid
  | _ => .free

/-- Changes the requirement on the first token. -/
def setHead (p : Pos) : List (Pos × Tok) → List (Pos × Tok)
  | [] => []
  | (_, t) :: ts => (p, t) :: ts

mutual
/-- The tokens of an expression with the requirements of R's grammar on line breaks. -/
def shape (g : Region) : Expr → List (Pos × Tok)
  | .atom _ _ t => [(.free, outTok t)]
  | .str _ o c l =>
    (.free, outTok o) ::
      ((match c with | some t => [(.forbid, outTok t)] | none => []) ++ [(.forbid, outTok l)])
  | .paren _ l e r => (.free, outTok l) :: (shape .paren e ++ [(.free, outTok r)])
  | .braced _ l es r => (.free, outTok l) :: (shapes .brace .free es ++ [(.free, outTok r)])
  | .unary _ o e => (.free, outTok o) :: shape g e
  | .binary _ x o y => shape g x ++ (g.op, outTok o) :: shape g y
  | .sel _ .extract x o y => shape g x ++ (g.op, outTok o) :: shape g y
  | .sel _ .namespace x o y => shape g x ++ (g.op, outTok o) :: setHead g.op (shape g y)
  | .call _ _ f _ l items r =>
    shape g f ++ (g.op, outTok l) :: (shapeItems items ++ [(.free, outTok r)])
  | .func _ kw _ l items r b =>
    (.free, outTok kw) :: (.free, outTok l) :: (shapeItems items ++ (.free, outTok r) :: shape g b)
  | .ite _ kw l c r t =>
    (.free, outTok kw) :: (.free, outTok l) :: (shape .paren c ++ (.free, outTok r) :: shape g t)
  | .itee _ kw l c r t _ el e =>
    (.free, outTok kw) :: (.free, outTok l) ::
      (shape .paren c ++ (.free, outTok r) :: (shape g t ++ (g.els, outTok el) :: shape g e))
  | .for_ _ kw l v i s r b =>
    (.free, outTok kw) :: (.free, outTok l) ::
      (shape .paren v ++ (.free, outTok i) :: (shape .paren s ++ (.free, outTok r) :: shape g b))
  | .while_ _ kw l c r b =>
    (.free, outTok kw) :: (.free, outTok l) :: (shape .paren c ++ (.free, outTok r) :: shape g b)
  | .repeat_ _ kw b => (.free, outTok kw) :: shape g b
/-- Statements; `p`: the requirement on the first one. Two statements must be separated. -/
def shapes (g : Region) (p : Pos) : Exprs → List (Pos × Tok)
  | .nil => []
  | .cons e es => setHead p (shape g e) ++ shapes g .need es
/-- Arguments or parameters. -/
def shapeItems : Items → List (Pos × Tok)
  | .nil => []
  | .last x => shapeArg x
  | .cons x s xs => shapeArg x ++ (.free, outTok s) :: shapeItems xs
def shapeArg : Arg → List (Pos × Tok)
  | .hole _ => []
  | .val _ e => shape .paren e
  | .name _ _ n q => shape .paren n ++ [(.free, outTok q)]
  | .named _ _ n q e => shape .paren n ++ (.free, outTok q) :: shape .paren e
  | .pdef _ n _ q e => shape .paren n ++ (.free, outTok q) :: shape .paren e
end

/-- A requirement on a line break is met. -/
def Pos.Ok : Pos → Bool → Prop
  | .free, _ => True
  | .forbid, b => b = false
  | .need, b => b = true

/-- The tokens seen are those of the shape and their line breaks are as required. -/
def Fits : List (Pos × Tok) → List (Bool × Tok) → Prop
  | [], [] => True
  | (p, t) :: ps, (b, u) :: us => t = u ∧ p.Ok b ∧ Fits ps us
  | _, _ => False

instance : (p : Pos) → (b : Bool) → Decidable (p.Ok b)
  | .free, _ => .isTrue trivial
  | .forbid, b => inferInstanceAs (Decidable (b = false))
  | .need, b => inferInstanceAs (Decidable (b = true))

instance decidableFits : (ps : List (Pos × Tok)) → (us : List (Bool × Tok)) →
    Decidable (Fits ps us)
  | [], [] => .isTrue trivial
  | (p, t) :: ps, (b, u) :: us =>
    have := decidableFits ps us
    inferInstanceAs (Decidable (t = u ∧ p.Ok b ∧ Fits ps us))
  | [], _ :: _ => .isFalse (fun h => h)
  | _ :: _, [] => .isFalse (fun h => h)

/-- The tokens of `ps` are printed in order; if `strict`: starting in a state with `P`, reading the
printed text `x` yields these tokens, none of which is in a comment, with line breaks as required,
and ends in a state with `Q`. -/
def Reads (strict : Bool) (P : RState → Prop) (ps : List (Pos × Tok)) (Q : RState → Prop)
    (x : List El) : Prop :=
  (strict = true → ∀ s, P s → Fits ps (seen s x) ∧ Q (endState s x)) ∧
  printedToks x = ps.map Prod.snd

/-- Not inside a comment; after a token on the same line; at the start of a line; anywhere. -/
def Nc (s : RState) : Prop := s ≠ .comment
def In (s : RState) : Prop := s = .inside
def Fr (s : RState) : Prop := s = .fresh
def An (_ : RState) : Prop := True

/-! ## Rewriting -/

/-- The expression in braces. -/
def wrapE (e : Expr) : Expr :=
  .braced {} ⟨.lCurly, [], [123], []⟩ (.cons e .nil) ⟨.rCurly, [], [125], []⟩

/-- A body after formatting: as it is if it must stay (`as`), braced if braces are forced or the
statement is spread over several lines (`multi`). -/
def newBody (as force multi : Bool) (x : Expr) : Expr :=
  if as then x else if force || multi then wrapE x else x

/-- The assignment operator after formatting: style `arrow` replaces `=`, style `equal` replaces `<-`
where R's grammar allows `=` (`eq`). -/
def newOp (style : Settings.AssignmentStyle) (eq : Bool) (op : Token) : Token :=
  match op.kind, style with
  | .equal, .arrow => ⟨.assign, [], [60, 45], []⟩
  | .assign, .equal => if eq then ⟨.equal, [], [61], []⟩ else op
  | _, _ => op

/-- The node is printed as it is. -/
def kept (o : Opts) (cx : Cx) (e : Expr) : Bool := !(cx.chain && e.isChain) && suppressed o cx e

/-- Is the call formatted as a table? -/
def isTable (o : Opts) (cx : Cx) (a : Ann) (k : CallKind) (f : Expr) : Bool :=
  k == .call && cx.table.getD (hasDirective o cx.dir a .table || inSetting o.table f)

/-- A node that is not kept is rewritten as `P` says. -/
def Unless (b : Bool) (e e' : Expr) (P : Prop) : Prop := if b then e' = e else P

mutual
/-- `e'` is a permitted rewriting of `e`. -/
def Rew (o : Opts) (cx : Cx) : Expr → Expr → Prop
  | .atom a k t, e' => e' = .atom a k t
  | .str a p c l, e' => e' = .str a p c l
  | .paren a l e r, e' => Unless (kept o cx (.paren a l e r)) (.paren a l e r) e'
      (∃ x, Rew o (bodyCx cx) e x ∧ e' = .paren a l x r)
  | .braced a l es r, e' => Unless (kept o cx (.braced a l es r)) (.braced a l es r) e'
      (∃ xs, Rews o cx false es xs ∧ e' = .braced a l xs r)
  | .unary a p e, e' => Unless (kept o cx (.unary a p e)) (.unary a p e) e'
      (∃ x, Rew o (if p.kind = .wat then bodyCx cx else plainCx cx) e x ∧ e' = .unary a p x)
  | .binary a x p y, e' => Unless (kept o cx (.binary a x p y)) (.binary a x p y) e'
      (∃ x' y',
        Rew o { opCx cx p.kind with chain := isChainOp p.kind } x x' ∧
        Rew o { opCx cx p.kind with
          table := if isAssignOp p.kind && hasDirective o cx.dir a .table
                   then some true else none } y y' ∧
        e' = .binary a x' (newOp o.style cx.eq p) y')
  | .sel a k x p y, e' => Unless (kept o cx (.sel a k x p y)) (.sel a k x p y) e'
      (∃ x' y', Rew o (plainCx cx) x x' ∧ Rew o (plainCx cx) y y' ∧ e' = .sel a k x' p y')
  | .call a k f aa l items r, e' =>
    Unless (kept o cx (.call a k f aa l items r)) (.call a k f aa l items r) e'
      (∃ f' items', Rew o (plainCx cx) f f' ∧
        (RewItems o { inArg := true } true items items' ∨
          isTable o cx a k f = true ∧ items' = items) ∧
        e' = .call a k f' aa l items' r)
  | .func a kw pa l items r b, e' =>
    Unless (kept o cx (.func a kw pa l items r b)) (.func a kw pa l items r b) e'
      (∃ items' b' multi, RewItems o (plainCx cx) false items items' ∧ Rew o (bodyCx cx) b b' ∧
        e' = .func a kw pa l items' r (newBody b.isBraced (leadingNewline b.tokens) multi b'))
  | .ite a kw l c r t, e' => Unless (kept o cx (.ite a kw l c r t)) (.ite a kw l c r t) e'
      (∃ c' t' multi, Rew o (plainCx cx) c c' ∧ Rew o (bodyCx cx) t t' ∧
        e' = .ite a kw l c' r
          (newBody t.isBraced (cx.braces.getD (forceBraces cx.effect t none)) multi t'))
  | .itee a kw l c r t ea el e, e' =>
    Unless (kept o cx (.itee a kw l c r t ea el e)) (.itee a kw l c r t ea el e) e'
      (∃ c' t' x multi, Rew o (plainCx cx) c c' ∧ Rew o (bodyCx cx) t t' ∧
        Rew o { bodyCx cx with
          braces := if e.isIf
            then some (cx.braces.getD (forceBraces cx.effect t (some (el, e)))) else none } e x ∧
        e' = .itee a kw l c' r
          (newBody t.isBraced (cx.braces.getD (forceBraces cx.effect t (some (el, e)))) multi t')
          ea el
          (newBody (e.isBraced || e.isIf)
            (cx.braces.getD (forceBraces cx.effect t (some (el, e)))) multi x))
  | .for_ a kw l v i s r b, e' =>
    Unless (kept o cx (.for_ a kw l v i s r b)) (.for_ a kw l v i s r b) e'
      (∃ v' s' b', Rew o (plainCx cx) v v' ∧ Rew o (plainCx cx) s s' ∧ Rew o (bodyCx cx) b b' ∧
        e' = .for_ a kw l v' i s' r (newBody b.isBraced true false b'))
  | .while_ a kw l c r b, e' => Unless (kept o cx (.while_ a kw l c r b)) (.while_ a kw l c r b) e'
      (∃ c' b', Rew o (plainCx cx) c c' ∧ Rew o (bodyCx cx) b b' ∧
        e' = .while_ a kw l c' r (newBody b.isBraced true false b'))
  | .repeat_ a kw b, e' => Unless (kept o cx (.repeat_ a kw b)) (.repeat_ a kw b) e'
      (∃ b', Rew o (bodyCx cx) b b' ∧ e' = .repeat_ a kw (newBody b.isBraced true false b'))
termination_by structural x _ => x
/-- Statements one by one; `top`: at top level. -/
def Rews (o : Opts) (cx : Cx) (top : Bool) : Exprs → Exprs → Prop
  | .nil, es' => es' = .nil
  | .cons e es, es' => ∃ x xs,
      Rew o { dir := true, eq := true, inArg := cx.inArg, effect := top || 0 < es.length } e x ∧
      Rews o cx top es xs ∧ es' = .cons x xs
termination_by structural x _ => x
/-- Arguments (`dir`) or parameters one by one. -/
def RewItems (o : Opts) (vcx : Cx) (dir : Bool) : Items → Items → Prop
  | .nil, xs' => xs' = .nil
  | .last x, xs' => ∃ x', RewArg o vcx dir x x' ∧ xs' = .last x'
  | .cons x s xs, xs' => ∃ x' ys, RewArg o vcx dir x x' ∧ RewItems o vcx dir xs ys ∧
      xs' = .cons x' s ys
termination_by structural x _ => x
def RewArg (o : Opts) (vcx : Cx) (dir : Bool) : Arg → Arg → Prop
  | .hole a, x' => x' = .hole a
  | .val a e, x' =>
    (hasDirective o dir a .skip = true ∧ x' = .val a e) ∨ ∃ e', Rew o vcx e e' ∧ x' = .val a e'
  | .name a na n q, x' =>
    (hasDirective o dir a .skip = true ∧ x' = .name a na n q) ∨
      ∃ n', Rew o (plainCx vcx) n n' ∧ x' = .name a na n' q
  | .named a na n q e, x' =>
    (hasDirective o dir a .skip = true ∧ x' = .named a na n q e) ∨
      ∃ n' e', Rew o (plainCx vcx) n n' ∧ Rew o vcx e e' ∧ x' = .named a na n' q e'
  | .pdef a n da q e, x' =>
    (hasDirective o dir a .skip = true ∧ x' = .pdef a n da q e) ∨
      ∃ n' e', Rew o (plainCx vcx) n n' ∧ Rew o vcx e e' ∧ x' = .pdef a n' da q e'
termination_by structural x _ => x
end

/-! ## Conditions on comments -/

/-- The formatted expression may end with a line break: it ends in a unary operator whose argument
has comments, or in a node with dangling comments (which comment placement does not produce). -/
def tailNl : Expr → Bool
  | .braced .. => false
  | .unary a _ e => !a.dangling.isEmpty || e.ann.any || tailNl e
  | .binary a _ _ y => !a.dangling.isEmpty || tailNl y
  | .sel a _ _ _ y => !a.dangling.isEmpty || tailNl y
  | .func a _ _ _ _ _ b => !a.dangling.isEmpty || tailNl b
  | .ite a _ _ _ _ t => !a.dangling.isEmpty || tailNl t
  | .itee a _ _ _ _ _ ea _ e => !a.dangling.isEmpty || !ea.dangling.isEmpty || tailNl e
  | .atom a .. | .str a .. | .paren a .. | .call a .. | .for_ a .. | .while_ a .. | .repeat_ a .. =>
    !a.dangling.isEmpty

/-- The source text of tokens `ts`, put somewhere, reads as the expression of shape `ps`. -/
def RawOk (w : Bool) (ps : List (Pos × Tok)) (ts : List Token) : Prop :=
  Reads w Nc ps In (rawEls ts)

/-- Comments of the nodes below an argument. -/
def Arg.inner : Arg → List Comment
  | .hole _ => []
  | .val _ e => e.comments
  | .name _ na n _ => na.all ++ n.comments
  | .named _ na n _ e => na.all ++ n.comments ++ e.comments
  | .pdef _ n da _ e => n.comments ++ da.all ++ e.comments

/-- Trivia between tokens. -/
def innerTrivia : List Token → List Piece
  | [] => []
  | [_] => []
  | t :: u :: ts => t.trailing ++ u.leading ++ innerTrivia (u :: ts)

/-- No comments inside an argument; comments before and after it are fine. -/
def Arg.Quiet (x : Arg) : Prop := x.inner = [] ∧ hasComment (innerTrivia x.tokens) = false

/-- Cells of a table other than numbers have no comments inside; the table ends at the first named
argument. -/
def cellsQuiet : Items → Prop
  | .nil => True
  | .last x => x.isNamed = true ∨ x.isNumeric = true ∨ x.Quiet
  | .cons x _ xs => x.isNamed = true ∨ ((x.isNumeric = true ∨ x.Quiet) ∧ cellsQuiet xs)

mutual
/-- Conditions under which the expression is formatted without changing the program, if its output
stands in region `g`; nothing is required if `w = false`. -/
def Tame (w : Bool) (o : Opts) (g : Region) (cx : Cx) : Expr → Prop
  | .atom _ _ _ => True
  | .str a p c l =>
    if kept o cx (.str a p c l) then RawOk w (shape g (.str a p c l)) (Expr.tokens (.str a p c l))
    else True
  | .paren a l e r =>
    if kept o cx (.paren a l e r) then
      RawOk w (shape g (.paren a l e r)) (Expr.tokens (.paren a l e r))
    else Tame w o .paren (bodyCx cx) e
  | .braced a l es r =>
    if kept o cx (.braced a l es r) then
      RawOk w (shape g (.braced a l es r)) (Expr.tokens (.braced a l es r))
    else Tames w o .brace cx false es
  | .unary a p e =>
    if kept o cx (.unary a p e) then RawOk w (shape g (.unary a p e)) (Expr.tokens (.unary a p e))
    else Tame w o g (if p.kind = .wat then bodyCx cx else plainCx cx) e
  | .binary a x p y =>
    if kept o cx (.binary a x p y) then
      RawOk w (shape g (.binary a x p y)) (Expr.tokens (.binary a x p y))
    else
      (w = true → g.op = .forbid → tailNl x = false) ∧
      Tame w o g { opCx cx p.kind with chain := isChainOp p.kind } x ∧
      Tame w o g { opCx cx p.kind with
          table := if isAssignOp p.kind && hasDirective o cx.dir a .table
                   then some true else none } y
  | .sel a k x p y =>
    if kept o cx (.sel a k x p y) then
      RawOk w (shape g (.sel a k x p y)) (Expr.tokens (.sel a k x p y))
    else
      (w = true → g.op = .forbid → tailNl x = false) ∧
      (w = true → k = .namespace → g.op = .forbid → y.ann.leading = [] ∧ y.isTerminal = true) ∧
      Tame w o g (plainCx cx) x ∧ Tame w o g (plainCx cx) y
  | .call a k f aa l items r =>
    if kept o cx (.call a k f aa l items r) then
      RawOk w (shape g (.call a k f aa l items r)) (Expr.tokens (.call a k f aa l items r))
    else
      (w = true → g.op = .forbid → tailNl f = false ∧ aa.leading = []) ∧
      Tame w o g (plainCx cx) f ∧ TameItems w o { inArg := true } true items ∧
      (isTable o cx a k f = true →
        (w = true → cellsQuiet items) ∧
        RawOk w ((.free, outTok l) :: (shapeItems items ++ [(.free, outTok r)]))
          (l :: (items.tokens ++ [r])))
  | .func a kw pa l items r b =>
    if kept o cx (.func a kw pa l items r b) then
      RawOk w (shape g (.func a kw pa l items r b)) (Expr.tokens (.func a kw pa l items r b))
    else
      TameItems w o (plainCx cx) false items ∧
      (leadingNewline b.tokens = false ∨ b.isBraced = true → Tame w o g (bodyCx cx) b) ∧
      Tame w o .brace (bodyCx cx) b
  | .ite a kw l c r t =>
    if kept o cx (.ite a kw l c r t) then
      RawOk w (shape g (.ite a kw l c r t)) (Expr.tokens (.ite a kw l c r t))
    else
      Tame w o .paren (plainCx cx) c ∧
      (cx.braces.getD (forceBraces cx.effect t none) = false ∨ t.isBraced = true →
        Tame w o g (bodyCx cx) t) ∧
      Tame w o .brace (bodyCx cx) t
  | .itee a kw l c r t ea el e =>
    if kept o cx (.itee a kw l c r t ea el e) then
      RawOk w (shape g (.itee a kw l c r t ea el e)) (Expr.tokens (.itee a kw l c r t ea el e))
    else
      Tame w o .paren (plainCx cx) c ∧
      (cx.braces.getD (forceBraces cx.effect t (some (el, e))) = false ∨ t.isBraced = true →
        Tame w o g (bodyCx cx) t ∧ (w = true → g.els = .forbid → tailNl t = false)) ∧
      Tame w o .brace (bodyCx cx) t ∧
      (w = true → g.els = .forbid → ea.leading = []) ∧
      (cx.braces.getD (forceBraces cx.effect t (some (el, e))) = false ∨ e.isBraced = true ∨
          e.isIf = true →
        Tame w o g { bodyCx cx with
          braces := if e.isIf
            then some (cx.braces.getD (forceBraces cx.effect t (some (el, e)))) else none } e) ∧
      Tame w o .brace { bodyCx cx with
          braces := if e.isIf
            then some (cx.braces.getD (forceBraces cx.effect t (some (el, e)))) else none } e
  | .for_ a kw l v i s r b =>
    if kept o cx (.for_ a kw l v i s r b) then
      RawOk w (shape g (.for_ a kw l v i s r b)) (Expr.tokens (.for_ a kw l v i s r b))
    else
      Tame w o .paren (plainCx cx) v ∧ Tame w o .paren (plainCx cx) s ∧
      Tame w o .brace (bodyCx cx) b ∧ (b.isBraced = true → Tame w o g (bodyCx cx) b)
  | .while_ a kw l c r b =>
    if kept o cx (.while_ a kw l c r b) then
      RawOk w (shape g (.while_ a kw l c r b)) (Expr.tokens (.while_ a kw l c r b))
    else
      Tame w o .paren (plainCx cx) c ∧
      Tame w o .brace (bodyCx cx) b ∧ (b.isBraced = true → Tame w o g (bodyCx cx) b)
  | .repeat_ a kw b =>
    if kept o cx (.repeat_ a kw b) then
      RawOk w (shape g (.repeat_ a kw b)) (Expr.tokens (.repeat_ a kw b))
    else Tame w o .brace (bodyCx cx) b ∧ (b.isBraced = true → Tame w o g (bodyCx cx) b)
def Tames (w : Bool) (o : Opts) (g : Region) (cx : Cx) (top : Bool) : Exprs → Prop
  | .nil => True
  | .cons e es =>
    Tame w o g { dir := true, eq := true, inArg := cx.inArg, effect := top || 0 < es.length } e ∧
    Tames w o g cx top es
def TameItems (w : Bool) (o : Opts) (vcx : Cx) (dir : Bool) : Items → Prop
  | .nil => True
  | .last x => TameArg w o vcx dir x
  | .cons x _ xs => TameArg w o vcx dir x ∧ TameItems w o vcx dir xs
def TameArg (w : Bool) (o : Opts) (vcx : Cx) (dir : Bool) : Arg → Prop
  | .hole _ => True
  | .val a e =>
    (hasDirective o dir a .skip = true → RawOk w (shape .paren e) e.tokens) ∧ Tame w o .paren vcx e
  | .name a na n q =>
    (hasDirective o dir a .skip = true →
      RawOk w (shapeArg (.name a na n q)) (Arg.tokens (.name a na n q))) ∧
    Tame w o .paren (plainCx vcx) n
  | .named a na n q e =>
    (hasDirective o dir a .skip = true →
      RawOk w (shapeArg (.named a na n q e)) (Arg.tokens (.named a na n q e))) ∧
    Tame w o .paren (plainCx vcx) n ∧ Tame w o .paren vcx e
  | .pdef a n da q e =>
    (hasDirective o dir a .skip = true →
      RawOk w (shapeArg (.pdef a n da q e)) (Arg.tokens (.pdef a n da q e))) ∧
    Tame w o .paren (plainCx vcx) n ∧ Tame w o .paren vcx e
end

end Verif.Format
