import Verif.Model.Factory

/-!
# Slots
-/

namespace Verif.Syntax

/-- The children can be distributed over the slots: in order, each in a slot where it fits. -/
def Distributed (tests : List (Kind → Bool)) (cs slots : List Slot) : Prop :=
  slots.filter (fun s => !s.isEmpty) = cs ∧ slots.length = tests.length ∧
    ∀ (i : Nat) (p : Kind → Bool) (s : Slot), tests[i]? = some p → slots[i]? = some s →
      s.kind?.all p = true

mutual
/-- Tokens in order. -/
def Slot.tokens : Slot → List Token
  | .empty => []
  | .token t => [t]
  | .node _ ss => Slot.tokensList ss
def Slot.tokensList : List Slot → List Token
  | [] => []
  | s :: ss => Slot.tokens s ++ Slot.tokensList ss
end

mutual
/-- No part of the tree is bogus. -/
def Slot.genuine : Slot → Prop
  | .empty => True
  | .token _ => True
  | .node k ss => k ≠ .rBogus ∧ k ≠ .rBogusValue ∧ k ≠ .rBogusExpression ∧ Slot.genuineList ss
def Slot.genuineList : List Slot → Prop
  | [] => True
  | s :: ss => Slot.genuine s ∧ Slot.genuineList ss
end

end Verif.Syntax

namespace Verif.Format
open Verif.Syntax

mutual
/-- Without comments attached. -/
def Expr.plainly : Expr → Expr
  | .atom _ k t => .atom {} k t
  | .str _ o c l => .str {} o c l
  | .paren _ l e r => .paren {} l e.plainly r
  | .braced _ l es r => .braced {} l es.plainly r
  | .unary _ o e => .unary {} o e.plainly
  | .binary _ x o y => .binary {} x.plainly o y.plainly
  | .sel _ k x o y => .sel {} k x.plainly o y.plainly
  | .call _ k f _ l items r => .call {} k f.plainly {} l items.plainly r
  | .func _ kw _ l items r b => .func {} kw {} l items.plainly r b.plainly
  | .ite _ kw l c r t => .ite {} kw l c.plainly r t.plainly
  | .itee _ kw l c r t _ el e => .itee {} kw l c.plainly r t.plainly {} el e.plainly
  | .for_ _ kw l v i s r b => .for_ {} kw l v.plainly i s.plainly r b.plainly
  | .while_ _ kw l c r b => .while_ {} kw l c.plainly r b.plainly
  | .repeat_ _ kw b => .repeat_ {} kw b.plainly
def Exprs.plainly : Exprs → Exprs
  | .nil => .nil
  | .cons e es => .cons e.plainly es.plainly
def Items.plainly : Items → Items
  | .nil => .nil
  | .last x => .last x.plainly
  | .cons x s xs => .cons x.plainly s xs.plainly
def Arg.plainly : Arg → Arg
  | .hole _ => .hole {}
  | .val _ e => .val {} e.plainly
  | .name _ _ n q => .name {} {} n.plainly q
  | .named _ _ n q e => .named {} {} n.plainly q e.plainly
  | .pdef _ n _ q e => .pdef {} n.plainly {} q e.plainly
end

def Root.plainly (x : Root) : Root := ⟨{}, x.es.plainly, x.eof⟩

/-- An identifier. -/
def Expr.isName : Expr → Bool
  | .atom _ .rIdentifier _ => true
  | _ => false

mutual
/-- The variables of loops are identifiers: R also allows `...` and `..1`, tree-sitter does not. -/
def Expr.loops : Expr → Bool
  | .atom .. => true
  | .str .. => true
  | .paren _ _ e _ => e.loops
  | .braced _ _ es _ => es.loops
  | .unary _ _ e => e.loops
  | .binary _ x _ y => x.loops && y.loops
  | .sel _ _ x _ y => x.loops && y.loops
  | .call _ _ f _ _ items _ => f.loops && items.loops
  | .func _ _ _ _ items _ b => items.loops && b.loops
  | .ite _ _ _ c _ t => c.loops && t.loops
  | .itee _ _ _ c _ t _ _ e => c.loops && t.loops && e.loops
  | .for_ _ _ _ v _ s _ b => v.isName && s.loops && b.loops
  | .while_ _ _ _ c _ b => c.loops && b.loops
  | .repeat_ _ _ b => b.loops
def Exprs.loops : Exprs → Bool
  | .nil => true
  | .cons e es => e.loops && es.loops
def Items.loops : Items → Bool
  | .nil => true
  | .last x => x.loops
  | .cons x _ xs => x.loops && xs.loops
def Arg.loops : Arg → Bool
  | .hole _ => true
  | .val _ e => e.loops
  | .name _ _ n _ => n.loops
  | .named _ _ n _ e => n.loops && e.loops
  | .pdef _ n _ _ e => n.loops && e.loops
end

end Verif.Format
