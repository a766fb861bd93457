import Verif.Spec.Skip

/-!
# What an expression may become

The permitted changes of the program, from the documentation (`docs/formatter.qmd`, "Autobracing",
"Assignment") and independent of the formatting rules: braces are put around bodies according to the
documented criteria, `=` and `<-` are exchanged according to the setting. Everything else stays.
-/

namespace Verif.Format
open Verif.Syntax

/-- Where an expression stands.
* `effect`: at top level, or in braces and not the last
* `assign`: R's grammar allows an assignment with `=` here
* `elseIf`: after `else`
* `table`: the value of an assignment that is led by `# fmt: table` -/
structure Place where
  effect : Bool := false
  assign : Bool := false
  elseIf : Bool := false
  table : Bool := false
  deriving DecidableEq, Repr

/-- The place of a body, of the content of parentheses. -/
def Place.body : Place := { assign := true }

/-- `x` in braces. -/
def inBraces (x : Expr) : Expr :=
  .braced {} ⟨.lCurly, [], [123], []⟩ (.cons x .nil) ⟨.rCurly, [], [125], []⟩

/-- Body `b`, which has become `b'`, finally becomes `b''`: with existing braces nothing is added or
removed, otherwise braces are added iff `br`. -/
def Body (br : Bool) (b b' b'' : Expr) : Prop :=
  if b.isBraced = true ∨ br = false then b'' = b' else b'' = inBraces b'

/-- The part of the program starts on a new line. -/
def onNewLine : List Token → Bool
  | [] => false
  | t :: _ => t.leading.any (fun p => p.kind == .newline)

/-- The criteria for braces in an `if` statement: it is in effect position or part of a chain of
`else if`, a branch or `else` is on a new line, a branch has braces or is an `if` statement. -/
def criteria (p : Place) (parts : List (List Token)) (branches : List Expr) : Bool :=
  p.effect || p.elseIf || parts.any onNewLine || branches.any (fun b => b.isBraced || b.isIf)

/-- The operator of a binary expression after formatting. -/
def Operator (o : Opts) (p : Place) (op op' : Token) : Prop :=
  if op.kind = .equal ∧ o.style = .arrow then op' = ⟨.assign, [], [60, 45], []⟩
  else if op.kind = .assign ∧ o.style = .equal ∧ p.assign = true then
    op' = ⟨.equal, [], [61], []⟩
  else op' = op

/-- Operators that assign or separate the sides of a formula. -/
def assigns : Kind → Bool
  | .equal | .assign | .superAssign | .walrus | .assignRight | .superAssignRight | .tilde => true
  | _ => false

/-- Place of the operands: `=` is allowed in the operands of `=`, `<-` and `?` if it is allowed for
the operation itself. -/
def Place.operand (p : Place) (op : Kind) : Place :=
  { assign := p.assign && (op == .equal || op == .assign || op == .wat) }

/-- A node that is led by `# fmt: skip`, or a call of a listed function, may stay as it is; otherwise
it changes as `P` says. -/
def OrStays (o : Opts) (e e' : Expr) (P : Prop) : Prop := (asksSkip o true e = true ∧ e' = e) ∨ P

mutual
/-- At place `p`, `e` may become `e'`. -/
def Becomes (o : Opts) (p : Place) : Expr → Expr → Prop
  | .atom a k t, e' => e' = .atom a k t
  | .str a op c cl, e' => e' = .str a op c cl
  | .paren a l e r, e' => OrStays o (.paren a l e r) e' <|
    ∃ x, Becomes o .body e x ∧ e' = .paren a l x r
  | .braced a l es r, e' => OrStays o (.braced a l es r) e' <|
    ∃ xs, Becomess o false es xs ∧ e' = .braced a l xs r
  | .unary a op e, e' => OrStays o (.unary a op e) e' <|
    ∃ x, Becomes o { assign := op.kind == .wat } e x ∧ e' = .unary a op x
  | .binary a x op y, e' => OrStays o (.binary a x op y) e' <|
    ∃ x' op' y', Becomes o (p.operand op.kind) x x' ∧
      Becomes o { p.operand op.kind with table := assigns op.kind && a.asks o .table } y y' ∧
      Operator o p op op' ∧ e' = .binary a x' op' y'
  | .sel a k x op y, e' => OrStays o (.sel a k x op y) e' <|
    ∃ x' y', Becomes o {} x x' ∧ Becomes o {} y y' ∧ e' = .sel a k x' op y'
  | .call a k f aa l items r, e' => OrStays o (.call a k f aa l items r) e' <|
    ∃ f' items', Becomes o {} f f' ∧
      (BecomesItems o items items' ∨ asksTable o true p.table a f = true ∧ items' = items) ∧
      e' = .call a k f' aa l items' r
  | .func a kw pa l items r b, e' => OrStays o (.func a kw pa l items r b) e' <|
    ∃ items' b' b'' br, BecomesItems o items items' ∧ Becomes o .body b b' ∧
      (onNewLine b.tokens = true → br = true) ∧ Body br b b' b'' ∧
      e' = .func a kw pa l items' r b''
  | .ite a kw l c r t, e' => OrStays o (.ite a kw l c r t) e' <|
    ∃ c' t' t'' br, Becomes o {} c c' ∧ Becomes o .body t t' ∧
      (criteria p [t.tokens] [t] = true → br = true) ∧ Body br t t' t'' ∧
      e' = .ite a kw l c' r t''
  | .itee a kw l c r t ea el e, e' => OrStays o (.itee a kw l c r t ea el e) e' <|
    ∃ c' t' t'' x x'' br, Becomes o {} c c' ∧ Becomes o .body t t' ∧
      Becomes o { Place.body with elseIf := e.isIf } e x ∧
      (criteria p [t.tokens, [el], e.tokens] [t, e] = true → br = true) ∧
      Body br t t' t'' ∧ (if e.isIf = true then x'' = x else Body br e x x'') ∧
      e' = .itee a kw l c' r t'' ea el x''
  | .for_ a kw l v i s r b, e' => OrStays o (.for_ a kw l v i s r b) e' <|
    ∃ v' s' b' b'', Becomes o {} v v' ∧ Becomes o {} s s' ∧ Becomes o .body b b' ∧
      Body true b b' b'' ∧ e' = .for_ a kw l v' i s' r b''
  | .while_ a kw l c r b, e' => OrStays o (.while_ a kw l c r b) e' <|
    ∃ c' b' b'', Becomes o {} c c' ∧ Becomes o .body b b' ∧ Body true b b' b'' ∧
      e' = .while_ a kw l c' r b''
  | .repeat_ a kw b, e' => OrStays o (.repeat_ a kw b) e' <|
    ∃ b' b'', Becomes o .body b b' ∧ Body true b b' b'' ∧ e' = .repeat_ a kw b''
termination_by structural x _ => x
/-- Statements one by one; `top`: at top level. -/
def Becomess (o : Opts) (top : Bool) : Exprs → Exprs → Prop
  | .nil, es' => es' = .nil
  | .cons e es, es' => ∃ x xs,
      Becomes o { effect := top || 0 < es.length, assign := true } e x ∧
      Becomess o top es xs ∧ es' = .cons x xs
termination_by structural x _ => x
/-- Arguments or parameters one by one. -/
def BecomesItems (o : Opts) : Items → Items → Prop
  | .nil, xs' => xs' = .nil
  | .last x, xs' => ∃ x', BecomesArg o x x' ∧ xs' = .last x'
  | .cons x s xs, xs' => ∃ x' ys, BecomesArg o x x' ∧ BecomesItems o xs ys ∧ xs' = .cons x' s ys
termination_by structural x _ => x
def BecomesArg (o : Opts) : Arg → Arg → Prop
  | .hole a, x' => x' = .hole a
  | .val a e, x' => (a.asks o .skip = true ∧ x' = .val a e) ∨
      ∃ e', Becomes o {} e e' ∧ x' = .val a e'
  | .name a na n q, x' => (a.asks o .skip = true ∧ x' = .name a na n q) ∨
      ∃ n', Becomes o {} n n' ∧ x' = .name a na n' q
  | .named a na n q e, x' => (a.asks o .skip = true ∧ x' = .named a na n q e) ∨
      ∃ n' e', Becomes o {} n n' ∧ Becomes o {} e e' ∧ x' = .named a na n' q e'
  | .pdef a n da q e, x' => (a.asks o .skip = true ∧ x' = .pdef a n da q e) ∨
      ∃ n' e', Becomes o {} n n' ∧ Becomes o {} e e' ∧ x' = .pdef a n' da q e'
termination_by structural x _ => x
end

/-! ## Consistent braces -/

/-- Has the first branch of an `if` statement, or the expression itself, braces? -/
def Expr.branchBraced : Expr → Bool
  | .ite _ _ _ _ _ t => t.isBraced
  | .itee _ _ _ _ _ t _ _ _ => t.isBraced
  | e => e.isBraced

mutual
/-- Everywhere in the expression: the bodies of loops have braces; in a chain `if`, `else if`, …,
`else` either all branches have braces or none; if the chain is longer than `if`, `else`, or a branch
is an `if` statement, they have. -/
def Expr.tidy : Expr → Bool
  | .atom .. | .str .. => true
  | .paren _ _ e _ => e.tidy
  | .braced _ _ es _ => es.tidy
  | .unary _ _ e => e.tidy
  | .binary _ x _ y => x.tidy && y.tidy
  | .sel _ _ x _ y => x.tidy && y.tidy
  | .call _ _ f _ _ items _ => f.tidy && items.tidy
  | .func _ _ _ _ items _ b => items.tidy && b.tidy
  | .ite _ _ _ c _ t => c.tidy && t.tidy && !t.isIf
  | .itee _ _ _ c _ t _ _ e =>
    c.tidy && t.tidy && !t.isIf && e.tidy && (t.isBraced == e.branchBraced) && (t.isBraced || !e.isIf)
  | .for_ _ _ _ v _ s _ b => v.tidy && s.tidy && b.tidy && b.isBraced
  | .while_ _ _ _ c _ b => c.tidy && b.tidy && b.isBraced
  | .repeat_ _ _ b => b.tidy && b.isBraced
def Exprs.tidy : Exprs → Bool
  | .nil => true
  | .cons e es => e.tidy && es.tidy
def Items.tidy : Items → Bool
  | .nil => true
  | .last x => x.tidy
  | .cons x _ xs => x.tidy && xs.tidy
def Arg.tidy : Arg → Bool
  | .hole _ => true
  | .val _ e => e.tidy
  | .name _ _ n _ => n.tidy
  | .named _ _ n _ e => n.tidy && e.tidy
  | .pdef _ n _ _ e => n.tidy && e.tidy
end

mutual
/-- All bodies in the expression have braces. -/
def Expr.allBraced : Expr → Bool
  | .atom .. | .str .. => true
  | .paren _ _ e _ => e.allBraced
  | .braced _ _ es _ => es.allBraced
  | .unary _ _ e => e.allBraced
  | .binary _ x _ y => x.allBraced && y.allBraced
  | .sel _ _ x _ y => x.allBraced && y.allBraced
  | .call _ _ f _ _ items _ => f.allBraced && items.allBraced
  | .func _ _ _ _ items _ b => items.allBraced && b.allBraced && b.isBraced
  | .ite _ _ _ c _ t => c.allBraced && t.allBraced && t.isBraced
  | .itee _ _ _ c _ t _ _ e =>
    c.allBraced && t.allBraced && t.isBraced && e.allBraced && (e.isBraced || e.isIf)
  | .for_ _ _ _ v _ s _ b => v.allBraced && s.allBraced && b.allBraced && b.isBraced
  | .while_ _ _ _ c _ b => c.allBraced && b.allBraced && b.isBraced
  | .repeat_ _ _ b => b.allBraced && b.isBraced
def Exprs.allBraced : Exprs → Bool
  | .nil => true
  | .cons e es => e.allBraced && es.allBraced
def Items.allBraced : Items → Bool
  | .nil => true
  | .last x => x.allBraced
  | .cons x _ xs => x.allBraced && xs.allBraced
def Arg.allBraced : Arg → Bool
  | .hole _ => true
  | .val _ e => e.allBraced
  | .name _ _ n _ => n.allBraced
  | .named _ _ n _ e => n.allBraced && e.allBraced
  | .pdef _ n _ _ e => n.allBraced && e.allBraced
end

/-- The branches of an `if` statement in effect position have braces. -/
def effectBraced (e : Expr) : Bool := !e.isIf || e.branchBraced

mutual
/-- Everywhere in the expression: `if` statements in effect position (in braces, not last) have
braces. -/
def Expr.effects : Expr → Bool
  | .atom .. | .str .. => true
  | .paren _ _ e _ => e.effects
  | .braced _ _ es _ => es.effects false
  | .unary _ _ e => e.effects
  | .binary _ x _ y => x.effects && y.effects
  | .sel _ _ x _ y => x.effects && y.effects
  | .call _ _ f _ _ items _ => f.effects && items.effects
  | .func _ _ _ _ items _ b => items.effects && b.effects
  | .ite _ _ _ c _ t => c.effects && t.effects
  | .itee _ _ _ c _ t _ _ e => c.effects && t.effects && e.effects
  | .for_ _ _ _ v _ s _ b => v.effects && s.effects && b.effects
  | .while_ _ _ _ c _ b => c.effects && b.effects
  | .repeat_ _ _ b => b.effects
/-- `top`: at top level, where all statements are in effect position. -/
def Exprs.effects (top : Bool) : Exprs → Bool
  | .nil => true
  | .cons e es => e.effects && es.effects top && (effectBraced e || !(top || 0 < es.length))
def Items.effects : Items → Bool
  | .nil => true
  | .last x => x.effects
  | .cons x _ xs => x.effects && xs.effects
def Arg.effects : Arg → Bool
  | .hole _ => true
  | .val _ e => e.effects
  | .name _ _ n _ => n.effects
  | .named _ _ n _ e => n.effects && e.effects
  | .pdef _ n _ _ e => n.effects && e.effects
end

end Verif.Format
