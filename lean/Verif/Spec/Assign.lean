import Verif.Spec.Grammar
import Verif.Spec.Skip

/-!
# Assignments
-/

namespace Verif.Format
open Verif.Syntax

/-- An assignment to the left with an operator other than `=`, not in parentheses. -/
def Expr.isArrow : Expr → Bool
  | .binary _ _ op _ => op.kind == .assign || op.kind == .superAssign || op.kind == .walrus
  | _ => false

/-- An assignment with `=`, not in parentheses. -/
def Expr.isEqual : Expr → Bool
  | .binary _ _ op _ => op.kind == .equal
  | _ => false

mutual
/-- Everywhere in the expression:
* the target of `=` is not itself an assignment with `<-`, `<<-` or `:=` (`a <- b = c`, which R reads
  as `(a <- b) = c` and fails to evaluate);
* with style `arrow`, if the value of `=` is an assignment with `=`, it is not led by `# fmt: skip`. -/
def Expr.clear (o : Opts) : Expr → Bool
  | .atom .. | .str .. => true
  | .paren _ _ e _ => e.clear o
  | .braced _ _ es _ => es.clear o
  | .unary _ _ e => e.clear o
  | .binary _ x op y => x.clear o && y.clear o && !(op.kind == .equal && x.isArrow) &&
    !(op.kind == .equal && o.style == .arrow && y.isEqual && asksSkip o true y)
  | .sel _ _ x _ y => x.clear o && y.clear o
  | .call _ _ f _ _ items _ => f.clear o && items.clear o
  | .func _ _ _ _ items _ b => items.clear o && b.clear o
  | .ite _ _ _ c _ t => c.clear o && t.clear o
  | .itee _ _ _ c _ t _ _ e => c.clear o && t.clear o && e.clear o
  | .for_ _ _ _ v _ s _ b => v.clear o && s.clear o && b.clear o
  | .while_ _ _ _ c _ b => c.clear o && b.clear o
  | .repeat_ _ _ b => b.clear o
def Exprs.clear (o : Opts) : Exprs → Bool
  | .nil => true
  | .cons e es => e.clear o && es.clear o
def Items.clear (o : Opts) : Items → Bool
  | .nil => true
  | .last x => x.clear o
  | .cons x _ xs => x.clear o && xs.clear o
def Arg.clear (o : Opts) : Arg → Bool
  | .hole _ => true
  | .val _ e => e.clear o
  | .name _ _ n _ => n.clear o
  | .named _ _ n _ e => n.clear o && e.clear o
  | .pdef _ n _ _ e => n.clear o && e.clear o
end

/-- The style asks for another operator; `eq`: R's grammar allows `=` here. -/
def wantsOp (s : Settings.AssignmentStyle) (eq : Bool) (k : Kind) : Bool :=
  (k == .equal && s == .arrow) || (k == .assign && s == .equal && eq)

mutual
/-- No assignment operator of the expression is to be replaced; `eq`: R's grammar allows an
assignment with `=` at this place. -/
def Expr.settled (s : Settings.AssignmentStyle) (eq : Bool) : Expr → Bool
  | .atom .. | .str .. => true
  | .paren _ _ e _ => e.settled s true
  | .braced _ _ es _ => es.settled s
  | .unary _ op e => e.settled s (op.kind == .wat)
  | .binary _ x op y =>
    let eq' := eq && (op.kind == .equal || op.kind == .assign || op.kind == .wat)
    !wantsOp s eq op.kind && x.settled s eq' && y.settled s eq'
  | .sel _ _ x _ y => x.settled s false && y.settled s false
  | .call _ _ f _ _ items _ => f.settled s false && items.settled s
  | .func _ _ _ _ items _ b => items.settled s && b.settled s true
  | .ite _ _ _ c _ t => c.settled s false && t.settled s true
  | .itee _ _ _ c _ t _ _ e => c.settled s false && t.settled s true && e.settled s true
  | .for_ _ _ _ v _ q _ b => v.settled s false && q.settled s false && b.settled s true
  | .while_ _ _ _ c _ b => c.settled s false && b.settled s true
  | .repeat_ _ _ b => b.settled s true
def Exprs.settled (s : Settings.AssignmentStyle) : Exprs → Bool
  | .nil => true
  | .cons e es => e.settled s true && es.settled s
def Items.settled (s : Settings.AssignmentStyle) : Items → Bool
  | .nil => true
  | .last x => x.settled s
  | .cons x _ xs => x.settled s && xs.settled s
def Arg.settled (s : Settings.AssignmentStyle) : Arg → Bool
  | .hole _ => true
  | .val _ e => e.settled s false
  | .name _ _ n _ => n.settled s false
  | .named _ _ n _ e => n.settled s false && e.settled s false
  | .pdef _ n _ _ e => n.settled s false && e.settled s false
end

end Verif.Format
