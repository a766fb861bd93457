import Verif.Model.FormatRules

/-!
# What is to be left as it was written

From the documentation (`docs/formatter.qmd`, directives and the setting `skip`): a node led by a
`# fmt: skip` comment that is a statement, an argument or an operand of a binary operator; a call of
a function listed in the setting. Two exceptions are deliberate (comments in
`call_arguments_table.rs:97`, `braced_expressions.rs:243-246`): directives on the cells of a table
and on the inner braces of `{{ x }}` do nothing.
-/

namespace Verif.Format
open Verif.Syntax

/-- A `# fmt: skip` (or `# fmt: table`) comment leads the node. -/
def Ann.asks (o : Opts) (d : Directive.Directive) (a : Ann) : Bool :=
  a.leading.any (fun c => o.directive c.text == some d)

/-- The expression is to be left as it is; `dir`: it is a statement or an operand. -/
def asksSkip (o : Opts) (dir : Bool) : Expr → Bool
  | .call a .call (.atom _ .rIdentifier t) .. => dir && a.asks o .skip || o.skip t.text
  | .call a .call (.sel _ .namespace _ _ (.atom _ .rIdentifier t)) .. =>
    dir && a.asks o .skip || o.skip t.text
  | e => dir && e.ann.asks o .skip

/-- The call is to be formatted as a table; `tb`: the assignment it is the value of asks for it. -/
def asksTable (o : Opts) (dir tb : Bool) (a : Ann) : Expr → Bool
  | .atom _ .rIdentifier t => tb || dir && a.asks o .table || o.table t.text
  | .sel _ .namespace _ _ (.atom _ .rIdentifier t) => tb || dir && a.asks o .table || o.table t.text
  | _ => tb || dir && a.asks o .table

/-- The node itself, or what is inside. -/
def pick (b : Bool) (ts : List Token) (inner : List (List Token)) : List (List Token) :=
  if b then [ts] else inner

mutual
/-- The (outermost) nodes in an expression that are to be left as they are. `dir`: the expression is
a statement or an operand; `inArg`: it is somewhere inside an argument; `tb`: it is the value of an
assignment led by `# fmt: table`. -/
def Expr.skips (o : Opts) (dir inArg tb : Bool) : Expr → List (List Token)
  | .atom a k t => pick (asksSkip o dir (.atom a k t)) [t] []
  | .str a p c l => pick (asksSkip o dir (.str a p c l)) (Expr.tokens (.str a p c l)) []
  | .paren a l e r =>
    pick (asksSkip o dir (.paren a l e r)) (Expr.tokens (.paren a l e r))
      (e.skips o false inArg false)
  | .braced a l es r =>
    pick (asksSkip o dir (.braced a l es r)) (Expr.tokens (.braced a l es r))
      (if (curlyCurly inArg es).isSome then [] else es.skips o inArg)
  | .unary a p e =>
    pick (asksSkip o dir (.unary a p e)) (Expr.tokens (.unary a p e)) (e.skips o false inArg false)
  | .binary a x p y =>
    pick (asksSkip o dir (.binary a x p y)) (Expr.tokens (.binary a x p y))
      -- the left part of a chain `a + b + c` is not a node of its own to the user
      (x.skips o (!(isChainOp p.kind && x.isChain)) inArg false ++
        y.skips o true inArg (isAssignOp p.kind && (dir && a.asks o .table)))
  | .sel a k x p y =>
    pick (asksSkip o dir (.sel a k x p y)) (Expr.tokens (.sel a k x p y))
      (x.skips o false inArg false ++ y.skips o false inArg false)
  | .call a k f aa l items r =>
    pick (asksSkip o dir (.call a k f aa l items r)) (Expr.tokens (.call a k f aa l items r))
      (f.skips o false inArg false ++
        items.skips o true true (k == .call && asksTable o dir tb a f))
  | .func a kw pa l items r b =>
    pick (asksSkip o dir (.func a kw pa l items r b)) (Expr.tokens (.func a kw pa l items r b))
      (items.skips o false inArg false ++ b.skips o false inArg false)
  | .ite a kw l c r t =>
    pick (asksSkip o dir (.ite a kw l c r t)) (Expr.tokens (.ite a kw l c r t))
      (c.skips o false inArg false ++ t.skips o false inArg false)
  | .itee a kw l c r t ea el e =>
    pick (asksSkip o dir (.itee a kw l c r t ea el e)) (Expr.tokens (.itee a kw l c r t ea el e))
      (c.skips o false inArg false ++ t.skips o false inArg false ++ e.skips o false inArg false)
  | .for_ a kw l v i s r b =>
    pick (asksSkip o dir (.for_ a kw l v i s r b)) (Expr.tokens (.for_ a kw l v i s r b))
      (v.skips o false inArg false ++ s.skips o false inArg false ++ b.skips o false inArg false)
  | .while_ a kw l c r b =>
    pick (asksSkip o dir (.while_ a kw l c r b)) (Expr.tokens (.while_ a kw l c r b))
      (c.skips o false inArg false ++ b.skips o false inArg false)
  | .repeat_ a kw b =>
    pick (asksSkip o dir (.repeat_ a kw b)) (Expr.tokens (.repeat_ a kw b))
      (b.skips o false inArg false)
/-- Statements. -/
def Exprs.skips (o : Opts) (inArg : Bool) : Exprs → List (List Token)
  | .nil => []
  | .cons e es => e.skips o true inArg false ++ es.skips o inArg
/-- Arguments (`dir`) or parameters; `cells`: they are the cells of a table, which ends at the first
named argument. -/
def Items.skips (o : Opts) (dir inArg cells : Bool) : Items → List (List Token)
  | .nil => []
  | .last x => x.skips o (dir && !(cells && !x.isNamed)) inArg
  | .cons x _ xs =>
    x.skips o (dir && !(cells && !x.isNamed)) inArg ++
      xs.skips o dir inArg (cells && !x.isNamed)
def Arg.skips (o : Opts) (dir inArg : Bool) : Arg → List (List Token)
  | .hole _ => []
  | .val a e => pick (dir && a.asks o .skip) e.tokens (e.skips o false inArg false)
  | .name a na n q =>
    pick (dir && a.asks o .skip) (Arg.tokens (.name a na n q)) (n.skips o false inArg false)
  | .named a na n q e =>
    pick (dir && a.asks o .skip) (Arg.tokens (.named a na n q e))
      (n.skips o false inArg false ++ e.skips o false inArg false)
  | .pdef a n da q e =>
    pick (dir && a.asks o .skip) (Arg.tokens (.pdef a n da q e))
      (n.skips o false inArg false ++ e.skips o false inArg false)
end

end Verif.Format
