import Verif.Spec.Format
import Verif.Spec.Skip

/-!
# A simple sufficient condition for formatting to keep the program
-/

namespace Verif.Format
open Verif.Syntax

mutual
/-- No comment stands where a line break printed with it would end the expression early: between a
unary operator and its argument on the left of another operator, between a callee and its arguments,
in front of `else`; the right operand of `::` is a name or a string, and names are not parts of strings. -/
def Expr.calm : Expr → Bool
  | .atom _ _ t => t.kind != .stringContent
  | .str .. => true
  | .paren _ _ e _ => e.calm
  | .braced _ _ es _ => es.calm
  | .unary _ _ e => e.calm
  | .binary _ x _ y => !tailNl x && x.calm && y.calm
  | .sel _ k x _ y =>
    !tailNl x && (k == .extract || y.ann.leading.isEmpty && y.isTerminal) && x.calm && y.calm
  | .call _ _ f aa _ items _ => !tailNl f && aa.leading.isEmpty && f.calm && items.calm
  | .func _ _ _ _ items _ b => items.calm && b.calm
  | .ite _ _ _ c _ t => c.calm && t.calm
  | .itee _ _ _ c _ t ea _ e => !tailNl t && ea.leading.isEmpty && c.calm && t.calm && e.calm
  | .for_ _ _ _ v _ s _ b => v.calm && s.calm && b.calm
  | .while_ _ _ _ c _ b => c.calm && b.calm
  | .repeat_ _ _ b => b.calm
def Exprs.calm : Exprs → Bool
  | .nil => true
  | .cons e es => e.calm && es.calm
def Items.calm : Items → Bool
  | .nil => true
  | .last x => x.calm
  | .cons x _ xs => x.calm && xs.calm
def Arg.calm : Arg → Bool
  | .hole _ => true
  | .val _ e => e.calm
  | .name _ _ n _ => n.calm
  | .named _ _ n _ e => n.calm && e.calm
  | .pdef _ n _ _ e => n.calm && e.calm
end

/-- No leading comment of the node asks for skipping or a table. -/
def Ann.ordinary (o : Opts) (a : Ann) : Bool := !a.asks o .skip && !a.asks o .table

/-- The function called is listed in the settings. -/
def listed (o : Opts) : Expr → Bool
  | .atom _ .rIdentifier t => o.skip t.text || o.table t.text
  | .sel _ .namespace _ _ (.atom _ .rIdentifier t) => o.skip t.text || o.table t.text
  | _ => false

mutual
/-- No node of the expression asks for skipping or a table, and the settings list no function that
is called in it. -/
def Expr.ordinary (o : Opts) : Expr → Bool
  | .atom a _ _ => a.ordinary o
  | .str a _ _ _ => a.ordinary o
  | .paren a _ e _ => a.ordinary o && e.ordinary o
  | .braced a _ es _ => a.ordinary o && es.ordinary o
  | .unary a _ e => a.ordinary o && e.ordinary o
  | .binary a x _ y => a.ordinary o && x.ordinary o && y.ordinary o
  | .sel a _ x _ y => a.ordinary o && x.ordinary o && y.ordinary o
  | .call a _ f _ _ items _ => a.ordinary o && !listed o f && f.ordinary o && items.ordinary o
  | .func a _ _ _ items _ b => a.ordinary o && items.ordinary o && b.ordinary o
  | .ite a _ _ c _ t => a.ordinary o && c.ordinary o && t.ordinary o
  | .itee a _ _ c _ t _ _ e => a.ordinary o && c.ordinary o && t.ordinary o && e.ordinary o
  | .for_ a _ _ v _ s _ b => a.ordinary o && v.ordinary o && s.ordinary o && b.ordinary o
  | .while_ a _ _ c _ b => a.ordinary o && c.ordinary o && b.ordinary o
  | .repeat_ a _ b => a.ordinary o && b.ordinary o
def Exprs.ordinary (o : Opts) : Exprs → Bool
  | .nil => true
  | .cons e es => e.ordinary o && es.ordinary o
def Items.ordinary (o : Opts) : Items → Bool
  | .nil => true
  | .last x => x.ordinary o
  | .cons x _ xs => x.ordinary o && xs.ordinary o
def Arg.ordinary (o : Opts) : Arg → Bool
  | .hole a => a.ordinary o
  | .val a e => a.ordinary o && e.ordinary o
  | .name a _ n _ => a.ordinary o && n.ordinary o
  | .named a _ n _ e => a.ordinary o && n.ordinary o && e.ordinary o
  | .pdef a n _ _ e => a.ordinary o && n.ordinary o && e.ordinary o
end

end Verif.Format
