import Verif.Spec.Comments
import Verif.Spec.Grammar

/-!
# Conditions on the source under which formatting keeps the program

* `Deco.risky`: comments at places where the line break after them may end an expression early.
* `Steady`: nodes that are kept as written do not get new braces around them, unless they are read in the
  same way there; cells of tables have no comments inside.
-/

namespace Verif.Format
open Verif.Syntax

/-- The comment stands between an operator and its operand, between a callee and its arguments, next to
`::`, inside a string, or directly inside a statement or braces that are the operand of a unary
operator. -/
def Deco.risky (X : View) (d : Deco) : Bool :=
  [Kind.rUnaryExpression, .rCall, .rSubset, .rSubset2, .rNamespaceExpression, .rStringValue].contains
    d.enclosing.kind ||
  ([Kind.rForStatement, .rWhileStatement, .rRepeatStatement, .rFunctionDefinition, .rIfStatement,
      .rBracedExpressions].contains d.enclosing.kind &&
    (X.nodeAt d.ref.dropLast).map View.kind == some .rUnaryExpression)

/-- A node that is kept reads the same in braces if it may get some, otherwise `P`. -/
def KeptIn (o : Opts) (w dir chain : Bool) (e : Expr) (P : Prop) : Prop :=
  if keptAt o dir chain e then w = true → RawOk true (shape .brace e) e.tokens else P

mutual
/-- `p`: in the source the expression is inside parentheses, where line breaks have no meaning; `w`: it may
stand in braces after formatting. The other arguments say as for `Verbs` what nodes are kept as written
and which calls are tables. -/
def Steady (o : Opts) (p w dir chain : Bool) (tb : Option Bool) : Expr → Prop
  | .atom a k t => KeptIn o w dir chain (.atom a k t) True
  | .str a q c l => KeptIn o w dir chain (.str a q c l) True
  | .paren a l e r => KeptIn o w dir chain (.paren a l e r) (Steady o true false false false none e)
  | .braced a l es r => KeptIn o w dir chain (.braced a l es r) (SteadyL o es)
  | .unary a q e => KeptIn o w dir chain (.unary a q e) (Steady o p w false false none e)
  | .binary a x q y => KeptIn o w dir chain (.binary a x q y)
      (Steady o p w true (isChainOp q.kind) none x ∧
        Steady o p w true false
          (if isAssignOp q.kind && hasDirective o dir a .table then some true else none) y)
  | .sel a k x q y => KeptIn o w dir chain (.sel a k x q y)
      (Steady o p w false false none x ∧ Steady o p w false false none y)
  | .call a k f aa l items r => KeptIn o w dir chain (.call a k f aa l items r)
      (Steady o p w false false none f ∧ SteadyI o items ∧
        (tableAt o dir tb a k f = true → cellsQuiet items))
  | .func a kw pa l items r b => KeptIn o w dir chain (.func a kw pa l items r b)
      (SteadyI o items ∧ Steady o p p false false none b)
  | .ite a kw l c r t => KeptIn o w dir chain (.ite a kw l c r t)
      (Steady o true false false false none c ∧ Steady o p p false false none t)
  | .itee a kw l c r t ea el e => KeptIn o w dir chain (.itee a kw l c r t ea el e)
      (Steady o true false false false none c ∧ Steady o p p false false none t ∧
        Steady o p p false false none e)
  | .for_ a kw l v i s r b => KeptIn o w dir chain (.for_ a kw l v i s r b)
      (Steady o true false false false none v ∧ Steady o true false false false none s ∧
        Steady o p p false false none b)
  | .while_ a kw l c r b => KeptIn o w dir chain (.while_ a kw l c r b)
      (Steady o true false false false none c ∧ Steady o p p false false none b)
  | .repeat_ a kw b => KeptIn o w dir chain (.repeat_ a kw b) (Steady o p p false false none b)
/-- Statements. -/
def SteadyL (o : Opts) : Exprs → Prop
  | .nil => True
  | .cons e es => Steady o false false true false none e ∧ SteadyL o es
/-- Arguments or parameters. -/
def SteadyI (o : Opts) : Items → Prop
  | .nil => True
  | .last x => SteadyA o x
  | .cons x _ xs => SteadyA o x ∧ SteadyI o xs
def SteadyA (o : Opts) : Arg → Prop
  | .hole _ => True
  | .val _ e => Steady o true false false false none e
  | .name _ _ n _ => Steady o true false false false none n
  | .named _ _ n _ e => Steady o true false false false none n ∧ Steady o true false false false none e
  | .pdef _ n _ _ e => Steady o true false false false none n ∧ Steady o true false false false none e
end

end Verif.Format
