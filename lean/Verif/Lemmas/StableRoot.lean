import Verif.Lemmas.StableCore
import Verif.Lemmas.FormatRoot
import Verif.Lemmas.FormatFree
import Verif.Lemmas.FormatSilent
import Verif.Lemmas.PlacementCalm
import Verif.Lemmas.ReaderMain

/-!
# Formatting formatted files
-/

namespace Verif.Format
open Verif.Syntax

/-! ## R programs without comments are calm -/

theorem tailNl_free : (e : Expr) → e.comments = [] → tailNl e = false
  | .atom a k t, h => by
    obtain ⟨-, h, -⟩ := Ann.all_nil (show a.all = [] from h)
    simp [tailNl, h]
  | .str a p c l, h => by
    obtain ⟨-, h, -⟩ := Ann.all_nil (show a.all = [] from h)
    simp [tailNl, h]
  | .paren a l e r, h => by
    simp only [Expr.comments, List.append_eq_nil_iff] at h
    simp [tailNl, (Ann.all_nil h.1).2.1]
  | .braced a l es r, h => rfl
  | .unary a p e, h => by
    simp only [Expr.comments, List.append_eq_nil_iff] at h
    have h2 := tailNl_free e h.2
    have h3 : e.ann.any = false := by
      have : e.ann.all = [] := by
        cases e <;> simp_all [Expr.ann, Expr.comments]
      obtain ⟨k1, k2, k3⟩ := Ann.all_nil this
      simp [Ann.any, k1, k2, k3]
    simp [tailNl, (Ann.all_nil h.1).2.1, h2, h3]
  | .binary a x p y, h => by
    simp only [Expr.comments, List.append_eq_nil_iff] at h
    have h2 := tailNl_free y h.2
    simp [tailNl, (Ann.all_nil h.1.1).2.1, h2]
  | .sel a k x p y, h => by
    simp only [Expr.comments, List.append_eq_nil_iff] at h
    have h2 := tailNl_free y h.2
    simp [tailNl, (Ann.all_nil h.1.1).2.1, h2]
  | .call a k f aa l items r, h => by
    simp only [Expr.comments, List.append_eq_nil_iff] at h
    simp [tailNl, (Ann.all_nil h.1.1.1).2.1]
  | .func a kw pa l items r b, h => by
    simp only [Expr.comments, List.append_eq_nil_iff] at h
    have h2 := tailNl_free b h.2
    simp [tailNl, (Ann.all_nil h.1.1.1).2.1, h2]
  | .ite a kw l c r t, h => by
    simp only [Expr.comments, List.append_eq_nil_iff] at h
    have h2 := tailNl_free t h.2
    simp [tailNl, (Ann.all_nil h.1.1).2.1, h2]
  | .itee a kw l c r t ea el e, h => by
    simp only [Expr.comments, List.append_eq_nil_iff] at h
    have h2 := tailNl_free e (by grind)
    have h3 : ea.all = [] := by grind
    have h4 : a.all = [] := by grind
    simp [tailNl, (Ann.all_nil h4).2.1, (Ann.all_nil h3).2.1, h2]
  | .for_ a kw l v i s r b, h => by
    simp only [Expr.comments, List.append_eq_nil_iff] at h
    have h4 : a.all = [] := by grind
    simp [tailNl, (Ann.all_nil h4).2.1]
  | .while_ a kw l c r b, h => by
    simp only [Expr.comments, List.append_eq_nil_iff] at h
    have h4 : a.all = [] := by grind
    simp [tailNl, (Ann.all_nil h4).2.1]
  | .repeat_ a kw b, h => by
    simp only [Expr.comments, List.append_eq_nil_iff] at h
    have h4 : a.all = [] := by grind
    simp [tailNl, (Ann.all_nil h4).2.1]

theorem name_terminal {e : Expr} (h : e.selector = true) : e.isTerminal = true := by
  cases e with
  | atom => rfl
  | str => rfl
  | _ => cases h

theorem selector_calm {e : Expr} (h : e.selector = true) : e.calm = true := by
  cases e with
  | atom =>
    simp only [Expr.selector, Bool.and_eq_true, beq_iff_eq] at h
    rw [Expr.calm, bne_iff_ne]
    intro hk
    simp [hk, atomKind] at h
  | str => rfl
  | _ => cases h

theorem argName_calm {e : Expr} (h : e.argName = true) : e.calm = true := by
  cases e with
  | atom =>
    simp only [Expr.argName, Bool.and_eq_true, beq_iff_eq] at h
    rw [Expr.calm, bne_iff_ne]
    intro hk
    simp [hk, atomKind] at h
  | str => rfl
  | _ => cases h

theorem parName_calm {e : Expr} (h : e.parName = true) : e.calm = true := by
  cases e with
  | atom =>
    simp only [Expr.parName, Bool.and_eq_true, beq_iff_eq] at h
    rw [Expr.calm, bne_iff_ne]
    intro hk
    simp [hk, atomKind] at h
  | _ => cases h

mutual
theorem gram_calm : (e : Expr) → (eq : Bool) → e.gram eq = true → e.comments = [] → e.calm = true
  | .atom _ _ t, _, hg, _ => by
    simp only [Expr.gram, Bool.and_eq_true, beq_iff_eq] at hg
    rw [Expr.calm, bne_iff_ne]
    intro h
    simp [h, atomKind] at hg
  | .str .., _, _, _ => rfl
  | .paren a l e r, eq, hg, h => by
    simp only [Expr.comments, Expr.gram, List.append_eq_nil_iff, Bool.and_eq_true] at h hg
    exact gram_calm e _ hg.1.2 h.2
  | .braced a l es r, eq, hg, h => by
    simp only [Expr.comments, Expr.gram, List.append_eq_nil_iff, Bool.and_eq_true] at h hg
    exact gram_calms es hg.1.2 h.2
  | .unary a p e, eq, hg, h => by
    simp only [Expr.comments, Expr.gram, List.append_eq_nil_iff] at h hg
    split at hg
    · simp only [Bool.and_eq_true] at hg
      exact gram_calm e _ hg.1 h.2
    · cases hg
  | .binary a x p y, eq, hg, h => by
    simp only [Expr.comments, Expr.gram, List.append_eq_nil_iff] at h hg
    split at hg
    · simp only [Bool.and_eq_true] at hg
      have h1 := gram_calm x _ hg.1.1.1.1 h.1.2
      have h2 := gram_calm y _ hg.1.1.1.2 h.2
      simp [Expr.calm, h1, h2, tailNl_free x h.1.2]
    · cases hg
  | .sel a .extract x p y, eq, hg, h => by
    simp only [Expr.comments, Expr.gram, List.append_eq_nil_iff, Bool.and_eq_true] at h hg
    have h1 := gram_calm x _ hg.1.1.1 h.1.2
    simp [Expr.calm, h1, selector_calm hg.2, tailNl_free x h.1.2]
  | .sel a .namespace x p y, eq, hg, h => by
    simp only [Expr.comments, Expr.gram, List.append_eq_nil_iff, Bool.and_eq_true] at h hg
    have h3 : y.ann.leading = [] := by
      have : y.ann.all = [] := by
        have := h.2
        cases y <;> simp_all [Expr.ann, Expr.comments]
      exact (Ann.all_nil this).1
    simp [Expr.calm, selector_calm hg.1.1, selector_calm hg.2, tailNl_free x h.1.2, name_terminal hg.2, h3]
  | .call a k f aa l items r, eq, hg, h => by
    simp only [Expr.comments, Expr.gram, List.append_eq_nil_iff, Bool.and_eq_true] at h hg
    have h1 := gram_calm f _ hg.1.1.1.1 h.1.1.2
    have h2 := gram_calmArgs items _ hg.1.2 h.2
    simp [Expr.calm, h1, h2, tailNl_free f h.1.1.2, (Ann.all_nil h.1.2).1]
  | .func a kw pa l items r b, eq, hg, h => by
    simp only [Expr.comments, Expr.gram, List.append_eq_nil_iff, Bool.and_eq_true] at h hg
    have h1 := gram_calm b _ hg.1.2 h.2
    have h2 := gram_calmPars items hg.1.1.1.2 h.1.2
    simp [Expr.calm, h1, h2]
  | .ite a kw l c r t, eq, hg, h => by
    simp only [Expr.comments, Expr.gram, List.append_eq_nil_iff, Bool.and_eq_true] at h hg
    have h1 := gram_calm c _ hg.1.1.1.2 h.1.2
    have h2 := gram_calm t _ hg.1.2 h.2
    simp [Expr.calm, h1, h2]
  | .itee a kw l c r t ea el e, eq, hg, h => by
    simp only [Expr.comments, Expr.gram, List.append_eq_nil_iff, Bool.and_eq_true] at h hg
    have h1 := gram_calm c _ hg.1.1.1.1.1.1.1.2 (by grind)
    have h2 := gram_calm t _ hg.1.1.1.1.1.2 (by grind)
    have h3 := gram_calm e _ hg.1.2 (by grind)
    have h4 := tailNl_free t (by grind)
    have h5 : ea.all = [] := by grind
    simp [Expr.calm, h1, h2, h3, h4, (Ann.all_nil h5).1]
  | .for_ a kw l v i s r b, eq, hg, h => by
    simp only [Expr.comments, Expr.gram, List.append_eq_nil_iff, Bool.and_eq_true] at h hg
    have h1 := gram_calm s _ hg.1.1.1.2 (by grind)
    have h2 := gram_calm b _ hg.1.2 (by grind)
    have h3 : v.parName = true := by grind
    simp [Expr.calm, h1, h2, parName_calm h3]
  | .while_ a kw l c r b, eq, hg, h => by
    simp only [Expr.comments, Expr.gram, List.append_eq_nil_iff, Bool.and_eq_true] at h hg
    have h1 := gram_calm c _ hg.1.1.1.2 h.1.2
    have h2 := gram_calm b _ hg.1.2 h.2
    simp [Expr.calm, h1, h2]
  | .repeat_ a kw b, eq, hg, h => by
    simp only [Expr.comments, Expr.gram, List.append_eq_nil_iff, Bool.and_eq_true] at h hg
    exact gram_calm b _ hg.1.2 h.2
theorem gram_calms : (es : Exprs) → es.gram = true → es.comments = [] → es.calm = true
  | .nil, _, _ => rfl
  | .cons e es, hg, h => by
    simp only [Exprs.comments, Exprs.gram, List.append_eq_nil_iff, Bool.and_eq_true] at h hg
    simp [Exprs.calm, gram_calm e _ hg.1 h.1, gram_calms es hg.2 h.2]
theorem gram_calmArgs : (xs : Items) → (first : Bool) → xs.gramArgs first = true → xs.comments = [] →
    xs.calm = true
  | .nil, _, _, _ => rfl
  | .last x, first, hg, h => by
    simp only [Items.gramArgs, Bool.and_eq_true] at hg
    exact gram_calmArg x hg.1 h
  | .cons x s xs, first, hg, h => by
    simp only [Items.comments, Items.gramArgs, List.append_eq_nil_iff, Bool.and_eq_true] at h hg
    simp [Items.calm, gram_calmArg x hg.1.1 h.1, gram_calmArgs xs _ hg.2 h.2]
theorem gram_calmArg : (x : Arg) → x.gramArg = true → x.comments = [] → x.calm = true
  | .hole _, _, _ => rfl
  | .val _ e, hg, h => by
    simp only [Arg.comments, List.append_eq_nil_iff] at h
    exact gram_calm e _ hg h.2
  | .name _ _ n q, hg, h => by
    simp only [Arg.gramArg, Bool.and_eq_true] at hg
    exact argName_calm hg.1
  | .named _ _ n q e, hg, h => by
    simp only [Arg.comments, Arg.gramArg, List.append_eq_nil_iff, Bool.and_eq_true] at h hg
    simp [Arg.calm, argName_calm hg.1.1, gram_calm e _ hg.2 h.2]
theorem gram_calmPars : (xs : Items) → xs.gramPars = true → xs.comments = [] → xs.calm = true
  | .nil, _, _ => rfl
  | .last x, hg, h => gram_calmPar x hg h
  | .cons x s xs, hg, h => by
    simp only [Items.comments, Items.gramPars, List.append_eq_nil_iff, Bool.and_eq_true] at h hg
    simp [Items.calm, gram_calmPar x hg.1.1 h.1, gram_calmPars1 xs hg.2 h.2]
theorem gram_calmPars1 : (xs : Items) → xs.gramPars1 = true → xs.comments = [] → xs.calm = true
  | .nil, _, _ => rfl
  | .last x, hg, h => gram_calmPar x hg h
  | .cons x s xs, hg, h => by
    simp only [Items.comments, Items.gramPars1, List.append_eq_nil_iff, Bool.and_eq_true] at h hg
    simp [Items.calm, gram_calmPar x hg.1.1 h.1, gram_calmPars1 xs hg.2 h.2]
theorem gram_calmPar : (x : Arg) → x.gramPar = true → x.comments = [] → x.calm = true
  | .val _ e, hg, _ => parName_calm hg
  | .pdef _ n _ q e, hg, h => by
    simp only [Arg.comments, Arg.gramPar, List.append_eq_nil_iff, Bool.and_eq_true] at h hg
    simp [Arg.calm, parName_calm hg.1.1, gram_calm e _ hg.2 h.2]
end

/-! ## Changes that keep the number of tokens -/

/-- No tokens are lost; if the tokens stay the same nothing is changed. -/
def Keeps (b b' : α) (ts ts' : List Token) : Prop :=
  ts.length ≤ ts'.length ∧ (ts'.map outTok = ts.map outTok → b' = b)

theorem Keeps.refl {b : α} {ts : List Token} : Keeps b b ts ts := ⟨Nat.le_refl _, fun _ => rfl⟩

theorem map_split {a a' b b' : List Token} (h1 : a.length ≤ a'.length) (h2 : b.length ≤ b'.length)
    (h : (a' ++ b').map outTok = (a ++ b).map outTok) :
    a'.map outTok = a.map outTok ∧ b'.map outTok = b.map outTok := by
  have hl := congrArg List.length h
  simp only [List.length_map, List.length_append] at hl
  rw [List.map_append, List.map_append] at h
  exact List.append_inj h (by simp; omega)

theorem map_cut {t t' : Token} {b b' : List Token} (h : (t' :: b').map outTok = (t :: b).map outTok) :
    outTok t' = outTok t ∧ b'.map outTok = b.map outTok := by
  simpa using h

theorem keeps_body {br : Bool} {b b' b'' : Expr} (h : Body br b b' b'')
    (hk : Keeps b.bare b'.bare b.tokens b'.tokens) : Keeps b.bare b''.bare b.tokens b''.tokens := by
  unfold Body at h
  split at h
  · rw [h]; exact hk
  · subst h
    refine ⟨?_, fun he => ?_⟩
    · have := hk.1; simp [inBraces, Expr.tokens, Exprs.tokens]; omega
    · have := congrArg List.length he
      have := hk.1
      simp [inBraces, Expr.tokens, Exprs.tokens] at *
      omega

mutual
theorem keeps_expr (o : Opts) : (e e' : Expr) → (p : Place) → Becomes o p e e' →
    Keeps e.bare e'.bare e.tokens e'.tokens
  | .atom a k t, e', p, h => by
    rw [Becomes] at h; subst h; exact .refl
  | .str a q c l, e', p, h => by
    rw [Becomes] at h; subst h; exact .refl
  | .paren a l e r, e', p, h => by
    rw [Becomes] at h
    rcases h with ⟨-, rfl⟩ | ⟨x, hx, rfl⟩
    · exact .refl
    · have h1 := keeps_expr o e x _ hx
      refine ⟨by have := h1.1; simp [Expr.tokens]; omega, fun he => ?_⟩
      simp only [Expr.tokens] at he
      have h2 := map_cut he
      have h3 := map_split h1.1 (Nat.le_refl _) h2.2
      simp only [Expr.bare, h1.2 h3.1]
  | .braced a l es r, e', p, h => by
    rw [Becomes] at h
    rcases h with ⟨-, rfl⟩ | ⟨x, hx, rfl⟩
    · exact .refl
    · have h1 := keeps_exprs o es x _ hx
      refine ⟨by have := h1.1; simp [Expr.tokens]; omega, fun he => ?_⟩
      simp only [Expr.tokens] at he
      have h2 := map_cut he
      have h3 := map_split h1.1 (Nat.le_refl _) h2.2
      simp only [Expr.bare, h1.2 h3.1]
  | .unary a q e, e', p, h => by
    rw [Becomes] at h
    rcases h with ⟨-, rfl⟩ | ⟨x, hx, rfl⟩
    · exact .refl
    · have h1 := keeps_expr o e x _ hx
      refine ⟨by have := h1.1; simp [Expr.tokens]; omega, fun he => ?_⟩
      simp only [Expr.tokens] at he
      simp only [Expr.bare, h1.2 (map_cut he).2]
  | .binary a x q y, e', p, h => by
    rw [Becomes] at h
    rcases h with ⟨-, rfl⟩ | ⟨x', q', y', hx, hy, -, rfl⟩
    · exact .refl
    · have h1 := keeps_expr o x x' _ hx
      have h2 := keeps_expr o y y' _ hy
      refine ⟨by have := h1.1; have := h2.1; simp [Expr.tokens]; omega, fun he => ?_⟩
      simp only [Expr.tokens] at he
      have h3 := map_split h1.1 (by have := h2.1; simp; omega) he
      have h4 := map_cut h3.2
      simp only [Expr.bare, h1.2 h3.1, bare_eq h4.1, h2.2 h4.2]
  | .sel a k x q y, e', p, h => by
    rw [Becomes] at h
    rcases h with ⟨-, rfl⟩ | ⟨x', y', hx, hy, rfl⟩
    · exact .refl
    · have h1 := keeps_expr o x x' _ hx
      have h2 := keeps_expr o y y' _ hy
      refine ⟨by have := h1.1; have := h2.1; simp [Expr.tokens]; omega, fun he => ?_⟩
      simp only [Expr.tokens] at he
      have h3 := map_split h1.1 (by have := h2.1; simp; omega) he
      have h4 := map_cut h3.2
      simp only [Expr.bare, h1.2 h3.1, bare_eq h4.1, h2.2 h4.2]
  | .call a k f aa l items r, e', p, h => by
    rw [Becomes] at h
    rcases h with ⟨-, rfl⟩ | ⟨f', items', hf, hi, rfl⟩
    · exact .refl
    · have h1 := keeps_expr o f f' _ hf
      have h2 : Keeps items.bare items'.bare items.tokens items'.tokens := by
        rcases hi with hi | ⟨-, rfl⟩
        · exact keeps_items o items items' hi
        · exact .refl
      refine ⟨by have := h1.1; have := h2.1; simp [Expr.tokens]; omega, fun he => ?_⟩
      simp only [Expr.tokens] at he
      have h3 := map_split h1.1 (by have := h2.1; simp; omega) he
      have h4 := map_cut h3.2
      have h5 := map_split h2.1 (Nat.le_refl _) h4.2
      simp only [Expr.bare, h1.2 h3.1, h2.2 h5.1]
  | .func a kw pa l items r b, e', p, h => by
    rw [Becomes] at h
    rcases h with ⟨-, rfl⟩ | ⟨items', b', b'', br, hi, hb, -, hB, rfl⟩
    · exact .refl
    · have h1 := keeps_items o items items' hi
      have h2 := keeps_body hB (keeps_expr o b b' _ hb)
      refine ⟨by have := h1.1; have := h2.1; simp [Expr.tokens]; omega, fun he => ?_⟩
      simp only [Expr.tokens] at he
      have h3 := map_cut he
      have h4 := map_cut h3.2
      have h5 := map_split h1.1 (by have := h2.1; simp; omega) h4.2
      have h6 := map_cut h5.2
      simp only [Expr.bare, h1.2 h5.1, h2.2 h6.2]
  | .ite a kw l c r t, e', p, h => by
    rw [Becomes] at h
    rcases h with ⟨-, rfl⟩ | ⟨c', b', b'', br, hi, hb, -, hB, rfl⟩
    · exact .refl
    · have h1 := keeps_expr o c c' _ hi
      have h2 := keeps_body hB (keeps_expr o t b' _ hb)
      refine ⟨by have := h1.1; have := h2.1; simp [Expr.tokens]; omega, fun he => ?_⟩
      simp only [Expr.tokens] at he
      have h3 := map_cut he
      have h4 := map_cut h3.2
      have h5 := map_split h1.1 (by have := h2.1; simp; omega) h4.2
      have h6 := map_cut h5.2
      simp only [Expr.bare, h1.2 h5.1, h2.2 h6.2]
  | .itee a kw l c r t ea el e, e', p, h => by
    rw [Becomes] at h
    rcases h with ⟨-, rfl⟩ | ⟨c', b', b'', x, x'', br, hi, hb, hx, -, hB, hB', rfl⟩
    · exact .refl
    · have h1 := keeps_expr o c c' _ hi
      have h2 := keeps_body hB (keeps_expr o t b' _ hb)
      have h0 := keeps_expr o e x _ hx
      have h7 : Keeps e.bare x''.bare e.tokens x''.tokens := by
        split at hB'
        · rw [hB']; exact h0
        · exact keeps_body hB' h0
      refine ⟨by have := h1.1; have := h2.1; have := h7.1; simp [Expr.tokens]; omega, fun he => ?_⟩
      simp only [Expr.tokens] at he
      have h3 := map_cut he
      have h4 := map_cut h3.2
      have h5 := map_split h1.1 (by have := h2.1; have := h7.1; simp; omega) h4.2
      have h6 := map_cut h5.2
      have h8 := map_split h2.1 (by have := h7.1; simp; omega) h6.2
      have h9 := map_cut h8.2
      simp only [Expr.bare, h1.2 h5.1, h2.2 h8.1, h7.2 h9.2]
  | .for_ a kw l v i s r b, e', p, h => by
    rw [Becomes] at h
    rcases h with ⟨-, rfl⟩ | ⟨v', s', b', b'', hv, hs, hb, hB, rfl⟩
    · exact .refl
    · have h1 := keeps_expr o v v' _ hv
      have h0 := keeps_expr o s s' _ hs
      have h2 := keeps_body hB (keeps_expr o b b' _ hb)
      refine ⟨by have := h1.1; have := h2.1; have := h0.1; simp [Expr.tokens]; omega, fun he => ?_⟩
      simp only [Expr.tokens] at he
      have h3 := map_cut he
      have h4 := map_cut h3.2
      have h5 := map_split h1.1 (by have := h2.1; have := h0.1; simp; omega) h4.2
      have h6 := map_cut h5.2
      have h7 := map_split h0.1 (by have := h2.1; simp; omega) h6.2
      have h8 := map_cut h7.2
      simp only [Expr.bare, h1.2 h5.1, h0.2 h7.1, h2.2 h8.2]
  | .while_ a kw l c r b, e', p, h => by
    rw [Becomes] at h
    rcases h with ⟨-, rfl⟩ | ⟨c', b', b'', hi, hb, hB, rfl⟩
    · exact .refl
    · have h1 := keeps_expr o c c' _ hi
      have h2 := keeps_body hB (keeps_expr o b b' _ hb)
      refine ⟨by have := h1.1; have := h2.1; simp [Expr.tokens]; omega, fun he => ?_⟩
      simp only [Expr.tokens] at he
      have h3 := map_cut he
      have h4 := map_cut h3.2
      have h5 := map_split h1.1 (by have := h2.1; simp; omega) h4.2
      have h6 := map_cut h5.2
      simp only [Expr.bare, h1.2 h5.1, h2.2 h6.2]
  | .repeat_ a kw b, e', p, h => by
    rw [Becomes] at h
    rcases h with ⟨-, rfl⟩ | ⟨b', b'', hb, hB, rfl⟩
    · exact .refl
    · have h2 := keeps_body hB (keeps_expr o b b' _ hb)
      refine ⟨by have := h2.1; simp [Expr.tokens]; omega, fun he => ?_⟩
      simp only [Expr.tokens] at he
      simp only [Expr.bare, h2.2 (map_cut he).2]
theorem keeps_exprs (o : Opts) : (es es' : Exprs) → (top : Bool) → Becomess o top es es' →
    Keeps es.bare es'.bare es.tokens es'.tokens
  | .nil, es', top, h => by rw [Becomess] at h; subst h; exact .refl
  | .cons e es, es', top, h => by
    rw [Becomess] at h
    obtain ⟨x, xs, hx, hxs, rfl⟩ := h
    have h1 := keeps_expr o e x _ hx
    have h2 := keeps_exprs o es xs _ hxs
    refine ⟨by have := h1.1; have := h2.1; simp [Exprs.tokens]; omega, fun he => ?_⟩
    simp only [Exprs.tokens] at he
    have h3 := map_split h1.1 h2.1 he
    simp only [Exprs.bare, h1.2 h3.1, h2.2 h3.2]
theorem keeps_items (o : Opts) : (xs xs' : Items) → BecomesItems o xs xs' →
    Keeps xs.bare xs'.bare xs.tokens xs'.tokens
  | .nil, xs', h => by rw [BecomesItems] at h; subst h; exact .refl
  | .last x, xs', h => by
    rw [BecomesItems] at h
    obtain ⟨x', hx, rfl⟩ := h
    have h1 := keeps_arg o x x' hx
    exact ⟨h1.1, fun he => by simp only [Items.bare, h1.2 he]⟩
  | .cons x s xs, xs', h => by
    rw [BecomesItems] at h
    obtain ⟨x', ys, hx, hxs, rfl⟩ := h
    have h1 := keeps_arg o x x' hx
    have h2 := keeps_items o xs ys hxs
    refine ⟨by have := h1.1; have := h2.1; simp [Items.tokens]; omega, fun he => ?_⟩
    simp only [Items.tokens] at he
    have h3 := map_split h1.1 (by have := h2.1; simp; omega) he
    have h4 := map_cut h3.2
    simp only [Items.bare, h1.2 h3.1, h2.2 h4.2]
theorem keeps_arg (o : Opts) : (x x' : Arg) → BecomesArg o x x' →
    Keeps x.bare x'.bare x.tokens x'.tokens
  | .hole a, x', h => by rw [BecomesArg] at h; subst h; exact .refl
  | .val a e, x', h => by
    rw [BecomesArg] at h
    rcases h with ⟨-, rfl⟩ | ⟨e', he, rfl⟩
    · exact .refl
    · have h1 := keeps_expr o e e' _ he
      exact ⟨h1.1, fun he => by simp only [Arg.bare, h1.2 he]⟩
  | .name a na n q, x', h => by
    rw [BecomesArg] at h
    rcases h with ⟨-, rfl⟩ | ⟨n', hn, rfl⟩
    · exact .refl
    · have h1 := keeps_expr o n n' _ hn
      refine ⟨by have := h1.1; simp [Arg.tokens]; omega, fun he => ?_⟩
      simp only [Arg.tokens] at he
      have h3 := map_split h1.1 (Nat.le_refl _) he
      simp only [Arg.bare, h1.2 h3.1]
  | .named a na n q e, x', h => by
    rw [BecomesArg] at h
    rcases h with ⟨-, rfl⟩ | ⟨n', e', hn, hv, rfl⟩
    · exact .refl
    · have h1 := keeps_expr o n n' _ hn
      have h2 := keeps_expr o e e' _ hv
      refine ⟨by have := h1.1; have := h2.1; simp [Arg.tokens]; omega, fun he => ?_⟩
      simp only [Arg.tokens] at he
      have h3 := map_split h1.1 (by have := h2.1; simp; omega) he
      have h4 := map_cut h3.2
      simp only [Arg.bare, h1.2 h3.1, h2.2 h4.2]
  | .pdef a n da q e, x', h => by
    rw [BecomesArg] at h
    rcases h with ⟨-, rfl⟩ | ⟨n', e', hn, hv, rfl⟩
    · exact .refl
    · have h1 := keeps_expr o n n' _ hn
      have h2 := keeps_expr o e e' _ hv
      refine ⟨by have := h1.1; have := h2.1; simp [Arg.tokens]; omega, fun he => ?_⟩
      simp only [Arg.tokens] at he
      have h3 := map_split h1.1 (by have := h2.1; simp; omega) he
      have h4 := map_cut h3.2
      simp only [Arg.bare, h1.2 h3.1, h2.2 h4.2]
end

/-! ## The grammar does not depend on trivia -/

@[simp] theorem bareTok_kind (t : Token) : (bareTok t).kind = t.kind := rfl

theorem bare_llow : (e : Expr) → e.bare.llow = e.llow
  | .binary _ x op _ => by simp [Expr.bare, Expr.llow, bare_llow x]
  | .sel _ .extract x _ _ => by simp [Expr.bare, Expr.llow, bare_llow x]
  | .sel _ .namespace x _ _ => rfl
  | .call _ _ f _ _ _ _ => by simp [Expr.bare, Expr.llow, bare_llow f]
  | .atom .. | .str .. | .paren .. | .braced .. | .unary .. | .func .. | .ite .. | .itee .. | .for_ ..
  | .while_ .. | .repeat_ .. => rfl

theorem bare_rcap : (e : Expr) → e.bare.rcap = e.rcap
  | .unary _ op e => by simp [Expr.bare, Expr.rcap, bare_rcap e]
  | .binary _ _ op y => by simp [Expr.bare, Expr.rcap, bare_rcap y]
  | .func _ _ _ _ _ _ b => by simp [Expr.bare, Expr.rcap, bare_rcap b]
  | .ite _ _ _ _ _ t => by simp [Expr.bare, Expr.rcap, bare_rcap t]
  | .itee _ _ _ _ _ _ _ _ e => by simp [Expr.bare, Expr.rcap, bare_rcap e]
  | .for_ _ _ _ _ _ _ _ b => by simp [Expr.bare, Expr.rcap, bare_rcap b]
  | .while_ _ _ _ _ _ b => by simp [Expr.bare, Expr.rcap, bare_rcap b]
  | .repeat_ _ _ b => by simp [Expr.bare, Expr.rcap, bare_rcap b]
  | .atom .. | .str .. | .paren .. | .braced .. | .sel .. | .call .. => rfl

theorem bare_openIf : (e : Expr) → e.bare.openIf = e.openIf
  | .unary _ op e => by simp [Expr.bare, Expr.openIf, bare_openIf e]
  | .binary _ _ op y => by simp [Expr.bare, Expr.openIf, bare_openIf y]
  | .func _ _ _ _ _ _ b => by simp [Expr.bare, Expr.openIf, bare_openIf b]
  | .ite _ _ _ _ _ t => rfl
  | .itee _ _ _ _ _ _ _ _ e => by simp [Expr.bare, Expr.openIf, bare_openIf e]
  | .for_ _ _ _ _ _ _ _ b => by simp [Expr.bare, Expr.openIf, bare_openIf b]
  | .while_ _ _ _ _ _ b => by simp [Expr.bare, Expr.openIf, bare_openIf b]
  | .repeat_ _ _ b => by simp [Expr.bare, Expr.openIf, bare_openIf b]
  | .atom .. | .str .. | .paren .. | .braced .. | .sel .. | .call .. => rfl

theorem bare_strKinds {p l : Token} {c : Option Token} :
    strKinds (bareTok p) (c.map bareTok) (bareTok l) = strKinds p c l := by
  cases c <;> rfl

theorem bare_isSelector : (e : Expr) → e.bare.selector = e.selector
  | .str .. => bare_strKinds
  | .atom .. | .paren .. | .braced .. | .unary .. | .binary .. | .sel .. | .call .. | .func .. | .ite ..
  | .itee .. | .for_ .. | .while_ .. | .repeat_ .. => rfl

theorem bare_argName : (e : Expr) → e.bare.argName = e.argName
  | .str .. => bare_strKinds
  | .atom .. | .paren .. | .braced .. | .unary .. | .binary .. | .sel .. | .call .. | .func .. | .ite ..
  | .itee .. | .for_ .. | .while_ .. | .repeat_ .. => rfl

theorem bare_parName : (e : Expr) → e.bare.parName = e.parName
  | .str .. | .atom .. | .paren .. | .braced .. | .unary .. | .binary .. | .sel .. | .call .. | .func ..
  | .ite .. | .itee .. | .for_ .. | .while_ .. | .repeat_ .. => rfl

mutual
theorem bare_gram : (e : Expr) → (eq : Bool) → e.bare.gram eq = e.gram eq
  | .atom .., _ => rfl
  | .str .., _ => bare_strKinds
  | .paren a l e r, eq => by simp [Expr.bare, Expr.gram, bare_gram e]
  | .braced a l es r, eq => by simp [Expr.bare, Expr.gram, bares_gram es]
  | .unary a p e, eq => by simp [Expr.bare, Expr.gram, bare_gram e, bare_llow]
  | .binary a x p y, eq => by simp [Expr.bare, Expr.gram, bare_gram x, bare_gram y, bare_llow, bare_rcap]
  | .sel a .extract x p y, eq => by simp [Expr.bare, Expr.gram, bare_gram x, bare_rcap, bare_isSelector]
  | .sel a .namespace x p y, eq => by simp [Expr.bare, Expr.gram, bare_isSelector]
  | .call a k f aa l items r, eq => by simp [Expr.bare, Expr.gram, bare_gram f, bare_gramArgs items, bare_rcap]
  | .func a kw pa l items r b, eq => by
    simp [Expr.bare, Expr.gram, bare_gram b, bare_gramPars items, bare_llow]
  | .ite a kw l c r t, eq => by simp [Expr.bare, Expr.gram, bare_gram c, bare_gram t, bare_llow]
  | .itee a kw l c r t ea el e, eq => by
    simp [Expr.bare, Expr.gram, bare_gram c, bare_gram t, bare_gram e, bare_llow, bare_openIf]
  | .for_ a kw l v i s r b, eq => by
    simp [Expr.bare, Expr.gram, bare_gram s, bare_gram b, bare_llow, bare_parName]
  | .while_ a kw l c r b, eq => by simp [Expr.bare, Expr.gram, bare_gram c, bare_gram b, bare_llow]
  | .repeat_ a kw b, eq => by simp [Expr.bare, Expr.gram, bare_gram b, bare_llow]
theorem bares_gram : (es : Exprs) → es.bare.gram = es.gram
  | .nil => rfl
  | .cons e es => by simp [Exprs.bare, Exprs.gram, bare_gram e, bares_gram es]
theorem bare_gramArgs : (xs : Items) → (first : Bool) → xs.bare.gramArgs first = xs.gramArgs first
  | .nil, _ => rfl
  | .last x, _ => by
    have : x.bare.isHole = x.isHole := by cases x <;> rfl
    simp [Items.bare, Items.gramArgs, bare_gramArg x, this]
  | .cons x s xs, _ => by simp [Items.bare, Items.gramArgs, bare_gramArg x, bare_gramArgs xs]
theorem bare_gramArg : (x : Arg) → x.bare.gramArg = x.gramArg
  | .hole _ => rfl
  | .val _ e => by simp [Arg.bare, Arg.gramArg, bare_gram e]
  | .name _ _ n q => by simp [Arg.bare, Arg.gramArg, bare_argName]
  | .named _ _ n q e => by simp [Arg.bare, Arg.gramArg, bare_argName, bare_gram e]
  | .pdef .. => rfl
theorem bare_gramPars : (xs : Items) → xs.bare.gramPars = xs.gramPars
  | .nil => rfl
  | .last x => by simp [Items.bare, Items.gramPars, bare_gramPar x]
  | .cons x s xs => by simp [Items.bare, Items.gramPars, bare_gramPar x, bare_gramPars1 xs]
theorem bare_gramPars1 : (xs : Items) → xs.bare.gramPars1 = xs.gramPars1
  | .nil => rfl
  | .last x => by simp [Items.bare, Items.gramPars1, bare_gramPar x]
  | .cons x s xs => by simp [Items.bare, Items.gramPars1, bare_gramPar x, bare_gramPars1 xs]
theorem bare_gramPar : (x : Arg) → x.bare.gramPar = x.gramPar
  | .hole _ => rfl
  | .val _ e => by simp [Arg.bare, Arg.gramPar, bare_parName]
  | .name .. => rfl
  | .named .. => rfl
  | .pdef _ n _ q e => by simp [Arg.bare, Arg.gramPar, bare_parName, bare_gram e]
end

/-! ## Trees are determined by their shape and their tokens -/

theorem ann_free {a : Ann} (h : a.all = []) : a = {} := by
  obtain ⟨h1, h2, h3⟩ := Ann.all_nil h
  cases a
  simp_all

/-- The number of tokens. -/
theorem append_same {a a' b b' : List Token} (hl : a'.length = a.length) (h : a' ++ b' = a ++ b) :
    a' = a ∧ b' = b := List.append_inj h hl

mutual
theorem bare_length : (e : Expr) → e.bare.tokens.length = e.tokens.length
  | .atom .. => rfl
  | .str _ _ none _ => rfl
  | .str _ _ (some _) _ => rfl
  | .paren a l e r => by simp [Expr.bare, Expr.tokens, bare_length e]
  | .braced a l es r => by simp [Expr.bare, Expr.tokens, bares_length es]
  | .unary a p e => by simp [Expr.bare, Expr.tokens, bare_length e]
  | .binary a x p y => by simp [Expr.bare, Expr.tokens, bare_length x, bare_length y]
  | .sel a k x p y => by simp [Expr.bare, Expr.tokens, bare_length x, bare_length y]
  | .call a k f aa l items r => by simp [Expr.bare, Expr.tokens, bare_length f, bareItems_length items]
  | .func a kw pa l items r b => by simp [Expr.bare, Expr.tokens, bare_length b, bareItems_length items]
  | .ite a kw l c r t => by simp [Expr.bare, Expr.tokens, bare_length c, bare_length t]
  | .itee a kw l c r t ea el e => by
    simp [Expr.bare, Expr.tokens, bare_length c, bare_length t, bare_length e]
  | .for_ a kw l v i s r b => by
    simp [Expr.bare, Expr.tokens, bare_length v, bare_length s, bare_length b]
  | .while_ a kw l c r b => by simp [Expr.bare, Expr.tokens, bare_length c, bare_length b]
  | .repeat_ a kw b => by simp [Expr.bare, Expr.tokens, bare_length b]
theorem bares_length : (es : Exprs) → es.bare.tokens.length = es.tokens.length
  | .nil => rfl
  | .cons e es => by simp [Exprs.bare, Exprs.tokens, bare_length e, bares_length es]
theorem bareItems_length : (xs : Items) → xs.bare.tokens.length = xs.tokens.length
  | .nil => rfl
  | .last x => by simp [Items.bare, Items.tokens, bareArg_length x]
  | .cons x s xs => by simp [Items.bare, Items.tokens, bareArg_length x, bareItems_length xs]
theorem bareArg_length : (x : Arg) → x.bare.tokens.length = x.tokens.length
  | .hole _ => rfl
  | .val _ e => by simp [Arg.bare, Arg.tokens, bare_length e]
  | .name _ _ n q => by simp [Arg.bare, Arg.tokens, bare_length n]
  | .named _ _ n q e => by simp [Arg.bare, Arg.tokens, bare_length n, bare_length e]
  | .pdef _ n _ q e => by simp [Arg.bare, Arg.tokens, bare_length n, bare_length e]
end

theorem same_length {e e' : Expr} (h : e'.bare = e.bare) : e'.tokens.length = e.tokens.length := by
  rw [← bare_length, h, bare_length]
theorem sames_length {e e' : Exprs} (h : e'.bare = e.bare) : e'.tokens.length = e.tokens.length := by
  rw [← bares_length, h, bares_length]
theorem sameItems_length {e e' : Items} (h : e'.bare = e.bare) : e'.tokens.length = e.tokens.length := by
  rw [← bareItems_length, h, bareItems_length]
theorem sameArg_length {e e' : Arg} (h : e'.bare = e.bare) : e'.tokens.length = e.tokens.length := by
  rw [← bareArg_length, h, bareArg_length]

mutual
theorem same_expr : (e e' : Expr) → e.comments = [] → e'.comments = [] → e'.bare = e.bare →
    e'.tokens = e.tokens → e' = e
  | .atom a k t, e', h, h', hb, ht => by
    cases e' <;> simp only [Expr.bare, Expr.atom.injEq, reduceCtorEq] at hb
    simp only [Expr.comments, Expr.tokens] at h h' ht
    rw [ann_free h, ann_free h', hb.2.1, List.cons.inj ht |>.1]
  | .str a p c l, e', h, h', hb, ht => by
    cases e' <;> simp only [Expr.bare, Expr.str.injEq, reduceCtorEq] at hb
    rename_i c' _
    simp only [Expr.comments] at h h'
    rw [ann_free h, ann_free h']
    cases c <;> cases c' <;> simp [Expr.tokens] at ht hb ⊢ <;> grind
  | .paren a l e r, e', h, h', hb, ht => by
    cases e' <;> simp only [Expr.bare, Expr.paren.injEq, reduceCtorEq] at hb
    simp only [Expr.comments, Expr.tokens, List.append_eq_nil_iff, List.cons.injEq] at h h' ht
    obtain ⟨t1, t2⟩ := ht
    obtain ⟨t3, t4⟩ := append_same (same_length hb.2.2.1) t2
    rw [ann_free h.1, ann_free h'.1, same_expr e _ h.2 h'.2 hb.2.2.1 t3, t1, List.cons.inj t4 |>.1]
  | .braced a l es r, e', h, h', hb, ht => by
    cases e' <;> simp only [Expr.bare, Expr.braced.injEq, reduceCtorEq] at hb
    simp only [Expr.comments, Expr.tokens, List.append_eq_nil_iff, List.cons.injEq] at h h' ht
    obtain ⟨t1, t2⟩ := ht
    obtain ⟨t3, t4⟩ := append_same (sames_length hb.2.2.1) t2
    rw [ann_free h.1, ann_free h'.1, same_exprs es _ h.2 h'.2 hb.2.2.1 t3, t1, List.cons.inj t4 |>.1]
  | .unary a p e, e', h, h', hb, ht => by
    cases e' <;> simp only [Expr.bare, Expr.unary.injEq, reduceCtorEq] at hb
    simp only [Expr.comments, Expr.tokens, List.append_eq_nil_iff, List.cons.injEq] at h h' ht
    obtain ⟨t1, t2⟩ := ht
    rw [ann_free h.1, ann_free h'.1, same_expr e _ h.2 h'.2 hb.2.2 t2, t1]
  | .binary a x p y, e', h, h', hb, ht => by
    cases e' <;> simp only [Expr.bare, Expr.binary.injEq, reduceCtorEq] at hb
    simp only [Expr.comments, Expr.tokens, List.append_eq_nil_iff] at h h' ht
    obtain ⟨t3, t4⟩ := append_same (same_length hb.2.1) ht
    obtain ⟨t5, t6⟩ := List.cons.inj t4
    rw [ann_free h.1.1, ann_free h'.1.1, same_expr x _ h.1.2 h'.1.2 hb.2.1 t3,
      same_expr y _ h.2 h'.2 hb.2.2.2 t6, t5]
  | .sel a k x p y, e', h, h', hb, ht => by
    cases e' <;> simp only [Expr.bare, Expr.sel.injEq, reduceCtorEq] at hb
    simp only [Expr.comments, Expr.tokens, List.append_eq_nil_iff] at h h' ht
    obtain ⟨t3, t4⟩ := append_same (same_length hb.2.2.1) ht
    obtain ⟨t5, t6⟩ := List.cons.inj t4
    rw [ann_free h.1.1, ann_free h'.1.1, same_expr x _ h.1.2 h'.1.2 hb.2.2.1 t3,
      same_expr y _ h.2 h'.2 hb.2.2.2.2 t6, t5, hb.2.1]
  | .call a k f aa l items r, e', h, h', hb, ht => by
    cases e' <;> simp only [Expr.bare, Expr.call.injEq, reduceCtorEq] at hb
    simp only [Expr.comments, Expr.tokens, List.append_eq_nil_iff] at h h' ht
    obtain ⟨-, b1, b2, -, -, b3, -⟩ := hb
    obtain ⟨t3, t4⟩ := append_same (same_length b2) ht
    obtain ⟨t5, t6⟩ := List.cons.inj t4
    obtain ⟨t7, t8⟩ := append_same (sameItems_length b3) t6
    rw [ann_free h.1.1.1, ann_free h'.1.1.1, ann_free h.1.2, ann_free h'.1.2,
      same_expr f _ h.1.1.2 h'.1.1.2 b2 t3, same_items items _ h.2 h'.2 b3 t7, t5, b1,
      List.cons.inj t8 |>.1]
  | .func a kw pa l items r b, e', h, h', hb, ht => by
    cases e' <;> simp only [Expr.bare, Expr.func.injEq, reduceCtorEq] at hb
    simp only [Expr.comments, Expr.tokens, List.append_eq_nil_iff, List.cons.injEq] at h h' ht
    obtain ⟨-, -, -, -, b1, -, b2⟩ := hb
    obtain ⟨t1, t2, t3⟩ := ht
    obtain ⟨t7, t8⟩ := append_same (sameItems_length b1) t3
    obtain ⟨t5, t6⟩ := List.cons.inj t8
    rw [ann_free h.1.1.1, ann_free h'.1.1.1, ann_free h.1.1.2, ann_free h'.1.1.2,
      same_expr b _ h.2 h'.2 b2 t6, same_items items _ h.1.2 h'.1.2 b1 t7, t1, t2, t5]
  | .ite a kw l c r t, e', h, h', hb, ht => by
    cases e' <;> simp only [Expr.bare, Expr.ite.injEq, reduceCtorEq] at hb
    simp only [Expr.comments, Expr.tokens, List.append_eq_nil_iff, List.cons.injEq] at h h' ht
    obtain ⟨-, -, -, b1, -, b2⟩ := hb
    obtain ⟨t1, t2, t3⟩ := ht
    obtain ⟨t7, t8⟩ := append_same (same_length b1) t3
    obtain ⟨t5, t6⟩ := List.cons.inj t8
    rw [ann_free h.1.1, ann_free h'.1.1, same_expr c _ h.1.2 h'.1.2 b1 t7,
      same_expr t _ h.2 h'.2 b2 t6, t1, t2, t5]
  | .itee a kw l c r t ea el e, e', h, h', hb, ht => by
    cases e' <;> simp only [Expr.bare, Expr.itee.injEq, reduceCtorEq] at hb
    simp only [Expr.comments, Expr.tokens, List.append_eq_nil_iff, List.cons.injEq] at h h' ht
    obtain ⟨-, -, -, b1, -, b2, -, -, b3⟩ := hb
    obtain ⟨t1, t2, t3⟩ := ht
    obtain ⟨t7, t8⟩ := append_same (same_length b1) t3
    obtain ⟨t5, t6⟩ := List.cons.inj t8
    obtain ⟨t9, t10⟩ := append_same (same_length b2) t6
    obtain ⟨t11, t12⟩ := List.cons.inj t10
    have k1 := same_expr c _ (by grind) (by grind) b1 t7
    have k2 := same_expr t _ (by grind) (by grind) b2 t9
    have k3 := same_expr e _ (by grind) (by grind) b3 t12
    grind [ann_free]
  | .for_ a kw l v i s r b, e', h, h', hb, ht => by
    cases e' <;> simp only [Expr.bare, Expr.for_.injEq, reduceCtorEq] at hb
    simp only [Expr.comments, Expr.tokens, List.append_eq_nil_iff, List.cons.injEq] at h h' ht
    obtain ⟨-, -, -, b1, -, b2, -, b3⟩ := hb
    obtain ⟨t1, t2, t3⟩ := ht
    obtain ⟨t7, t8⟩ := append_same (same_length b1) t3
    obtain ⟨t5, t6⟩ := List.cons.inj t8
    obtain ⟨t9, t10⟩ := append_same (same_length b2) t6
    obtain ⟨t11, t12⟩ := List.cons.inj t10
    have k1 := same_expr v _ (by grind) (by grind) b1 t7
    have k2 := same_expr s _ (by grind) (by grind) b2 t9
    have k3 := same_expr b _ (by grind) (by grind) b3 t12
    grind [ann_free]
  | .while_ a kw l c r b, e', h, h', hb, ht => by
    cases e' <;> simp only [Expr.bare, Expr.while_.injEq, reduceCtorEq] at hb
    simp only [Expr.comments, Expr.tokens, List.append_eq_nil_iff, List.cons.injEq] at h h' ht
    obtain ⟨-, -, -, b1, -, b2⟩ := hb
    obtain ⟨t1, t2, t3⟩ := ht
    obtain ⟨t7, t8⟩ := append_same (same_length b1) t3
    obtain ⟨t5, t6⟩ := List.cons.inj t8
    rw [ann_free h.1.1, ann_free h'.1.1, same_expr c _ h.1.2 h'.1.2 b1 t7,
      same_expr b _ h.2 h'.2 b2 t6, t1, t2, t5]
  | .repeat_ a kw b, e', h, h', hb, ht => by
    cases e' <;> simp only [Expr.bare, Expr.repeat_.injEq, reduceCtorEq] at hb
    simp only [Expr.comments, Expr.tokens, List.append_eq_nil_iff, List.cons.injEq] at h h' ht
    obtain ⟨t1, t2⟩ := ht
    rw [ann_free h.1, ann_free h'.1, same_expr b _ h.2 h'.2 hb.2.2 t2, t1]
theorem same_exprs : (es es' : Exprs) → es.comments = [] → es'.comments = [] → es'.bare = es.bare →
    es'.tokens = es.tokens → es' = es
  | .nil, es', _, _, hb, _ => by
    cases es' <;> simp only [Exprs.bare, reduceCtorEq] at hb
    rfl
  | .cons e es, es', h, h', hb, ht => by
    cases es' <;> simp only [Exprs.bare, Exprs.cons.injEq, reduceCtorEq] at hb
    simp only [Exprs.comments, Exprs.tokens, List.append_eq_nil_iff] at h h' ht
    obtain ⟨t3, t4⟩ := append_same (same_length hb.1) ht
    rw [same_expr e _ h.1 h'.1 hb.1 t3, same_exprs es _ h.2 h'.2 hb.2 t4]
theorem same_items : (xs xs' : Items) → xs.comments = [] → xs'.comments = [] → xs'.bare = xs.bare →
    xs'.tokens = xs.tokens → xs' = xs
  | .nil, xs', _, _, hb, _ => by
    cases xs' <;> simp only [Items.bare, reduceCtorEq] at hb
    rfl
  | .last x, xs', h, h', hb, ht => by
    cases xs' <;> simp only [Items.bare, Items.last.injEq, reduceCtorEq] at hb
    rw [same_argument x _ h h' hb ht]
  | .cons x s xs, xs', h, h', hb, ht => by
    cases xs' <;> simp only [Items.bare, Items.cons.injEq, reduceCtorEq] at hb
    simp only [Items.comments, Items.tokens, List.append_eq_nil_iff] at h h' ht
    obtain ⟨t3, t4⟩ := append_same (sameArg_length hb.1) ht
    obtain ⟨t5, t6⟩ := List.cons.inj t4
    rw [same_argument x _ h.1 h'.1 hb.1 t3, same_items xs _ h.2 h'.2 hb.2.2 t6, t5]
theorem same_argument : (x x' : Arg) → x.comments = [] → x'.comments = [] → x'.bare = x.bare →
    x'.tokens = x.tokens → x' = x
  | .hole a, x', h, h', hb, _ => by
    cases x' <;> simp only [Arg.bare, reduceCtorEq] at hb
    simp only [Arg.comments] at h h'
    rw [ann_free h, ann_free h']
  | .val a e, x', h, h', hb, ht => by
    cases x' <;> simp only [Arg.bare, Arg.val.injEq, reduceCtorEq] at hb
    simp only [Arg.comments, List.append_eq_nil_iff] at h h'
    rw [ann_free h.1, ann_free h'.1, same_expr e _ h.2 h'.2 hb.2 ht]
  | .name a na n q, x', h, h', hb, ht => by
    cases x' <;> simp only [Arg.bare, Arg.name.injEq, reduceCtorEq] at hb
    simp only [Arg.comments, Arg.tokens, List.append_eq_nil_iff] at h h' ht
    obtain ⟨t3, t4⟩ := append_same (same_length hb.2.2.1) ht
    obtain ⟨t5, -⟩ := List.cons.inj t4
    rw [ann_free h.1.1, ann_free h'.1.1, ann_free h.1.2, ann_free h'.1.2,
      same_expr n _ h.2 h'.2 hb.2.2.1 t3, t5]
  | .named a na n q e, x', h, h', hb, ht => by
    cases x' <;> simp only [Arg.bare, Arg.named.injEq, reduceCtorEq] at hb
    simp only [Arg.comments, Arg.tokens, List.append_eq_nil_iff] at h h' ht
    obtain ⟨t3, t4⟩ := append_same (same_length hb.2.2.1) ht
    obtain ⟨t5, t6⟩ := List.cons.inj t4
    have k1 := same_expr n _ (by grind) (by grind) hb.2.2.1 t3
    have k2 := same_expr e _ (by grind) (by grind) hb.2.2.2.2 t6
    grind [ann_free]
  | .pdef a n da q e, x', h, h', hb, ht => by
    cases x' <;> simp only [Arg.bare, Arg.pdef.injEq, reduceCtorEq] at hb
    simp only [Arg.comments, Arg.tokens, List.append_eq_nil_iff] at h h' ht
    obtain ⟨t3, t4⟩ := append_same (same_length hb.2.1) ht
    obtain ⟨t5, t6⟩ := List.cons.inj t4
    have k1 := same_expr n _ (by grind) (by grind) hb.2.1 t3
    have k2 := same_expr e _ (by grind) (by grind) hb.2.2.2.2 t6
    grind [ann_free]
end

end Verif.Format
