import Verif.Spec.Grammar
import Verif.Model.Placement

/-!
# The grammar does not depend on comments
-/

namespace Verif.Format
open Verif.Syntax

mutual
theorem llow_annotate (P : List Placed) : (e : Expr) → (r : Ref) → (e.annotate P r).llow = e.llow
  | .binary _ x _ _, _ => by simp [Expr.annotate, Expr.llow, llow_annotate P x]
  | .sel _ .extract x _ _, _ => by simp [Expr.annotate, Expr.llow, llow_annotate P x]
  | .sel _ .namespace _ _ _, _ => rfl
  | .call _ _ f _ _ _ _, _ => by simp [Expr.annotate, Expr.llow, llow_annotate P f]
  | .atom .., _ | .str .., _ | .paren .., _ | .braced .., _ | .unary .., _ | .func .., _ | .ite .., _
  | .itee .., _ | .for_ .., _ | .while_ .., _ | .repeat_ .., _ => rfl
theorem rcap_annotate (P : List Placed) : (e : Expr) → (r : Ref) → (e.annotate P r).rcap = e.rcap
  | .unary _ _ e, _ => by simp [Expr.annotate, Expr.rcap, rcap_annotate P e]
  | .binary _ _ _ y, _ => by simp [Expr.annotate, Expr.rcap, rcap_annotate P y]
  | .func _ _ _ _ _ _ b, _ => by simp [Expr.annotate, Expr.rcap, rcap_annotate P b]
  | .ite _ _ _ _ _ t, _ => by simp [Expr.annotate, Expr.rcap, rcap_annotate P t]
  | .itee _ _ _ _ _ _ _ _ e, _ => by simp [Expr.annotate, Expr.rcap, rcap_annotate P e]
  | .for_ _ _ _ _ _ _ _ b, _ => by simp [Expr.annotate, Expr.rcap, rcap_annotate P b]
  | .while_ _ _ _ _ _ b, _ => by simp [Expr.annotate, Expr.rcap, rcap_annotate P b]
  | .repeat_ _ _ b, _ => by simp [Expr.annotate, Expr.rcap, rcap_annotate P b]
  | .atom .., _ | .str .., _ | .paren .., _ | .braced .., _ | .sel .., _ | .call .., _ => rfl
theorem openIf_annotate (P : List Placed) : (e : Expr) → (r : Ref) → (e.annotate P r).openIf = e.openIf
  | .unary _ _ e, _ => by simp [Expr.annotate, Expr.openIf, openIf_annotate P e]
  | .binary _ _ _ y, _ => by simp [Expr.annotate, Expr.openIf, openIf_annotate P y]
  | .func _ _ _ _ _ _ b, _ => by simp [Expr.annotate, Expr.openIf, openIf_annotate P b]
  | .ite .., _ => rfl
  | .itee _ _ _ _ _ _ _ _ e, _ => by simp [Expr.annotate, Expr.openIf, openIf_annotate P e]
  | .for_ _ _ _ _ _ _ _ b, _ => by simp [Expr.annotate, Expr.openIf, openIf_annotate P b]
  | .while_ _ _ _ _ _ b, _ => by simp [Expr.annotate, Expr.openIf, openIf_annotate P b]
  | .repeat_ _ _ b, _ => by simp [Expr.annotate, Expr.openIf, openIf_annotate P b]
  | .atom .., _ | .str .., _ | .paren .., _ | .braced .., _ | .sel .., _ | .call .., _ => rfl
end

theorem names_annotate (P : List Placed) (e : Expr) (r : Ref) : (e.annotate P r).selector = e.selector ∧
    (e.annotate P r).argName = e.argName ∧ (e.annotate P r).parName = e.parName := by
  cases e <;> exact ⟨rfl, rfl, rfl⟩

mutual
theorem gram_annotate (P : List Placed) : (e : Expr) → (r : Ref) → (eq : Bool) →
    (e.annotate P r).gram eq = e.gram eq
  | .atom .., _, _ => rfl
  | .str .., _, _ => rfl
  | .paren _ _ e _, _, _ => by simp [Expr.annotate, Expr.gram, gram_annotate P e]
  | .braced _ _ es _, _, _ => by simp [Expr.annotate, Expr.gram, grams_annotate P es]
  | .unary _ _ e, _, _ => by simp [Expr.annotate, Expr.gram, gram_annotate P e, llow_annotate]
  | .binary _ x _ y, _, _ => by
    simp [Expr.annotate, Expr.gram, gram_annotate P x, gram_annotate P y, llow_annotate, rcap_annotate]
  | .sel _ .extract x _ y, _, _ => by
    simp [Expr.annotate, Expr.gram, gram_annotate P x, rcap_annotate, names_annotate]
  | .sel _ .namespace x _ y, _, _ => by simp [Expr.annotate, Expr.gram, names_annotate]
  | .call _ _ f _ _ items _, _, _ => by
    simp [Expr.annotate, Expr.gram, gram_annotate P f, gramArgs_annotate P items, rcap_annotate]
  | .func _ _ _ _ items _ b, _, _ => by
    simp [Expr.annotate, Expr.gram, gram_annotate P b, gramPars_annotate P items, llow_annotate]
  | .ite _ _ _ c _ t, _, _ => by
    simp [Expr.annotate, Expr.gram, gram_annotate P c, gram_annotate P t, llow_annotate]
  | .itee _ _ _ c _ t _ _ e, _, _ => by
    simp [Expr.annotate, Expr.gram, gram_annotate P c, gram_annotate P t, gram_annotate P e, llow_annotate,
      openIf_annotate]
  | .for_ _ _ _ v _ s _ b, _, _ => by
    simp [Expr.annotate, Expr.gram, gram_annotate P s, gram_annotate P b, llow_annotate, names_annotate]
  | .while_ _ _ _ c _ b, _, _ => by
    simp [Expr.annotate, Expr.gram, gram_annotate P c, gram_annotate P b, llow_annotate]
  | .repeat_ _ _ b, _, _ => by simp [Expr.annotate, Expr.gram, gram_annotate P b, llow_annotate]
theorem grams_annotate (P : List Placed) : (es : Exprs) → (r : Ref) → (i : Nat) →
    (es.annotate P r i).gram = es.gram
  | .nil, _, _ => rfl
  | .cons e es, _, _ => by simp [Exprs.annotate, Exprs.gram, gram_annotate P e, grams_annotate P es]
theorem gramArgs_annotate (P : List Placed) : (xs : Items) → (r : Ref) → (i : Nat) → (f : Bool) →
    (xs.annotate P r i).gramArgs f = xs.gramArgs f
  | .nil, _, _, _ => rfl
  | .last x, _, _, _ => by
    have : ∀ r, (x.annotate P r).isHole = x.isHole := by cases x <;> exact fun _ => rfl
    simp [Items.annotate, Items.gramArgs, gramArg_annotate P x, this]
  | .cons x _ xs, _, _, _ => by
    simp [Items.annotate, Items.gramArgs, gramArg_annotate P x, gramArgs_annotate P xs]
theorem gramArg_annotate (P : List Placed) : (x : Arg) → (r : Ref) →
    (x.annotate P r).gramArg = x.gramArg
  | .hole _, _ => rfl
  | .val _ e, _ => by simp [Arg.annotate, Arg.gramArg, gram_annotate P e]
  | .name _ _ n _, _ => by simp [Arg.annotate, Arg.gramArg, names_annotate]
  | .named _ _ n _ e, _ => by simp [Arg.annotate, Arg.gramArg, names_annotate, gram_annotate P e]
  | .pdef .., _ => rfl
theorem gramPars_annotate (P : List Placed) : (xs : Items) → (r : Ref) → (i : Nat) →
    (xs.annotate P r i).gramPars = xs.gramPars
  | .nil, _, _ => rfl
  | .last x, _, _ => by simp [Items.annotate, Items.gramPars, gramPar_annotate P x]
  | .cons x _ xs, _, _ => by
    simp [Items.annotate, Items.gramPars, gramPar_annotate P x, gramPars1_annotate P xs]
theorem gramPars1_annotate (P : List Placed) : (xs : Items) → (r : Ref) → (i : Nat) →
    (xs.annotate P r i).gramPars1 = xs.gramPars1
  | .nil, _, _ => rfl
  | .last x, _, _ => by simp [Items.annotate, Items.gramPars1, gramPar_annotate P x]
  | .cons x _ xs, _, _ => by
    simp [Items.annotate, Items.gramPars1, gramPar_annotate P x, gramPars1_annotate P xs]
theorem gramPar_annotate (P : List Placed) : (x : Arg) → (r : Ref) →
    (x.annotate P r).gramPar = x.gramPar
  | .hole _, _ => rfl
  | .val _ e, _ => by simp [Arg.annotate, Arg.gramPar, names_annotate]
  | .name .., _ => rfl
  | .named .., _ => rfl
  | .pdef _ n _ _ e, _ => by simp [Arg.annotate, Arg.gramPar, names_annotate, gram_annotate P e]
end

end Verif.Format
