import Verif.Model.LineEnding
import Verif.Spec.LineEnding

namespace Verif.LineEnding

section Generic
variable {α : Type} [DecidableEq α]

theorem findCrlf_none (cr lf : α) (l : List α) (h : findCrlf cr lf l = none) :
    replaceCrlf cr lf l = l := by
  fun_induction findCrlf cr lf l with
  | case1 => rfl
  | case2 => rfl
  | case3 => simp at h
  | case4 a b rest hne ih =>
    simp at h
    simp [replaceCrlf, hne, ih h]

theorem findCrlf_some (cr lf : α) (hne : cr ≠ lf) (l : List α) (i : Nat)
    (h : findCrlf cr lf l = some i) :
    replaceCrlf cr lf l = l.take i ++ replaceCrlf cr lf (l.drop (i + 1)) ∧ i + 2 ≤ l.length ∧
      l.drop i = cr :: lf :: l.drop (i + 2) := by
  fun_induction findCrlf cr lf l generalizing i with
  | case1 => simp at h
  | case2 => simp at h
  | case3 a b rest hab =>
    simp at h; subst h
    obtain ⟨rfl, rfl⟩ := hab
    simp [replaceCrlf]
    cases rest with
    | nil => simp [replaceCrlf]
    | cons c cs => simp [replaceCrlf, Ne.symm hne]
  | case4 a b rest hab ih =>
    simp at h
    obtain ⟨j, hj, rfl⟩ := h
    obtain ⟨h1, h2, h3⟩ := ih j hj
    refine ⟨?_, ?_, ?_⟩
    · simp [replaceCrlf, hab, h1]
    · simp at h2 ⊢; omega
    · simpa using h3

theorem findCrlf_none_iff (cr lf : α) (l : List α) :
    findCrlf cr lf l = none ↔ ¬ HasCrlf cr lf l := by
  fun_induction findCrlf cr lf l with
  | case1 =>
    simp only [true_iff]
    rintro ⟨p, s, h⟩
    have := congrArg List.length h
    simp at this
  | case2 =>
    simp only [true_iff]
    rintro ⟨p, s, h⟩
    have := congrArg List.length h
    simp at this; omega
  | case3 a b rest hab =>
    obtain ⟨rfl, rfl⟩ := hab
    simp only [reduceCtorEq, false_iff]
    exact fun h => h ⟨[], rest, rfl⟩
  | case4 a b rest hab ih =>
    simp only [Option.map_eq_none_iff, ih]
    refine not_congr ⟨?_, ?_⟩
    · rintro ⟨p, s, h⟩
      exact ⟨a :: p, s, by simp [h]⟩
    · rintro ⟨p, s, h⟩
      cases p with
      | nil => simp at h; exact absurd ⟨h.1, h.2.1⟩ hab
      | cons q qs => simp at h; exact ⟨qs, s, h.2⟩

theorem normalizeLoop_seen (cr lf : α) (hne : cr ≠ lf) (fuel : Nat) (done tail : List α) (gap : Nat)
    (hgap : gap ≤ tail.length) (hf : tail.length - gap < fuel) :
    normalizeLoop cr lf fuel done tail gap true =
      some (done ++ replaceCrlf cr lf (tail.drop gap)) := by
  induction fuel generalizing done tail gap with
  | zero => omega
  | succ fuel ih =>
    unfold normalizeLoop
    have hng : ¬ tail.length < gap := by omega
    simp only [hng, if_false]
    cases hfind : findCrlf cr lf (tail.drop gap) with
    | none =>
      have hr := findCrlf_none _ _ _ hfind
      have e : done.length + tail.length - gap = done.length + (tail.length - gap) := by omega
      simp [copyWithin0, hgap, hr, List.take_append, Nat.sub_sub_self hgap]
      rw [e, List.take_of_length_le (by omega), List.take_of_length_le (by simp)]
      simp
    | some i =>
      obtain ⟨h1, h2, h3⟩ := findCrlf_some cr lf hne _ _ hfind
      have hlen : i + gap + 2 ≤ tail.length := by simp at h2; omega
      have hb : gap ≤ i + gap ∧ i + gap ≤ tail.length := by omega
      have hl : ((tail.take (i + gap)).drop gap).length = i := by simp; omega
      simp only [copyWithin0, hb, and_self, if_true, Bool.true_or, Nat.add_sub_cancel]
      have e1 : ((tail.take (i + gap)).drop gap ++ tail.drop i).take i
          = (tail.take (i + gap)).drop gap := by
        rw [List.take_append_of_le_length (by omega), List.take_of_length_le (by omega)]
      have e2 : ((tail.take (i + gap)).drop gap ++ tail.drop i).drop i = tail.drop i := by
        rw [List.drop_append, hl]; simp [List.drop_eq_nil_of_le, hl]
      rw [e1, e2]
      have hnb : ¬ (tail.drop i).length = gap := by simp; omega
      simp only [hnb, if_false]
      rw [ih _ _ _ (by simp; omega) (by simp; omega)]
      rw [h1]
      simp [List.drop_drop, List.drop_take, Nat.add_comm, Nat.add_left_comm]

theorem normalize_eq (cr lf : α) (hne : cr ≠ lf) (x : List α) :
    normalize cr lf x = some (replaceCrlf cr lf x) := by
  unfold normalize
  cases hfind : findCrlf cr lf x with
  | none =>
    unfold normalizeLoop
    simp [hfind, findCrlf_none _ _ _ hfind]
  | some i =>
    obtain ⟨h1, h2, h3⟩ := findCrlf_some cr lf hne _ _ hfind
    unfold normalizeLoop
    have hb : 0 ≤ i ∧ i ≤ x.length := by omega
    have hl : (x.take i).length = i := by simp; omega
    have e2 : (x.take i ++ x.drop i).drop i = x.drop i := by simp
    have hnb : ¬ (x.length - i) = 0 := by omega
    simp [hfind, copyWithin0, hb, hnb]
    rw [normalizeLoop_seen cr lf hne _ _ _ _ (by simp; omega) (by simp; omega)]
    rw [h1]; simp [List.drop_drop]

theorem replaceCrlf_toCrlf (cr lf : α) (hne : cr ≠ lf) (x : List α) :
    replaceCrlf cr lf (toCrlf cr lf x) = x := by
  induction x with
  | nil => rfl
  | cons a x ih =>
    by_cases ha : a = lf
    · subst ha; simpa [toCrlf, replaceCrlf] using ih
    · have : toCrlf cr lf (a :: x) = a :: toCrlf cr lf x := by simp [toCrlf, ha]
      rw [this]
      cases h : toCrlf cr lf x with
      | nil =>
        rw [h] at ih
        simp [replaceCrlf] at ih ⊢
        exact ih
      | cons b r =>
        rw [h] at ih
        have hb : b ≠ lf := by
          rintro rfl
          cases x with
          | nil => simp [toCrlf] at h
          | cons c cs =>
            by_cases hc : c = b
            · simp [toCrlf, hc] at h; exact hne h.1
            · simp [toCrlf, hc] at h
        simp [replaceCrlf, hb, ih]

theorem toCrlf_cons (cr lf a : α) (x : List α) :
    toCrlf cr lf (a :: x) = (if a = lf then [cr, lf] else [a]) ++ toCrlf cr lf x := rfl

theorem AllCrlf.cons_iff (cr lf a : α) (x : List α) (ha : a ≠ lf) (hx : a = cr → ∀ t, x ≠ lf :: t) :
    AllCrlf cr lf (a :: x) ↔ AllCrlf cr lf x := by
  constructor
  · rintro h p s rfl
    obtain ⟨q, hq⟩ := h (a :: p) s rfl
    cases q with
    | nil =>
      simp at hq
      exact absurd (by rw [hq.2]; rfl) (hx hq.1 s)
    | cons b q => simp at hq; exact ⟨q, hq.2⟩
  · intro h p s hps
    cases p with
    | nil => simp at hps; exact absurd hps.1 ha
    | cons b p =>
      simp at hps
      obtain ⟨q, hq⟩ := h p s hps.2
      exact ⟨b :: q, by simp [hq]⟩

theorem toCrlf_replaceCrlf_iff (cr lf : α) (hne : cr ≠ lf) (x : List α) :
    toCrlf cr lf (replaceCrlf cr lf x) = x ↔ AllCrlf cr lf x := by
  fun_induction replaceCrlf cr lf x with
  | case1 =>
    simp [toCrlf, AllCrlf]
  | case2 a =>
    by_cases ha : a = lf
    · subst ha
      simp only [toCrlf, List.flatMap_cons, if_true, List.flatMap_nil]
      constructor
      · intro h; simp at h
      · intro h
        obtain ⟨q, hq⟩ := h [] [] rfl
        simp at hq
    · rw [AllCrlf.cons_iff _ _ _ _ ha (by simp)]
      simp [toCrlf, AllCrlf, ha]
  | case3 a b rest hab ih =>
    obtain ⟨rfl, rfl⟩ := hab
    rw [toCrlf_cons]
    simp only [if_true, List.cons_append, List.nil_append, List.cons.injEq, true_and]
    rw [ih]
    constructor
    · intro h p s hps
      cases p with
      | nil => simp at hps; exact absurd hps.1 hne
      | cons c p =>
        simp at hps
        cases p with
        | nil => exact ⟨[], by simp [hps.1]⟩
        | cons d p =>
          simp at hps
          obtain ⟨q, hq⟩ := h p s hps.2.2
          exact ⟨c :: d :: q, by simp [hq]⟩
    · rintro h p s rfl
      obtain ⟨q, hq⟩ := h (a :: b :: p) s rfl
      cases q with
      | nil => simp at hq
      | cons c q =>
        cases q with
        | nil => simp at hq; exact absurd hq.2.1.symm hne
        | cons d q => simp at hq; exact ⟨q, hq.2.2⟩
  | case4 a b rest hab ih =>
    rw [toCrlf_cons]
    by_cases ha : a = lf
    · subst ha
      simp only [if_true]
      constructor
      · intro h; simp at h; exact absurd h.1 hne
      · intro h
        obtain ⟨q, hq⟩ := h [] _ rfl
        simp at hq
    · rw [AllCrlf.cons_iff _ _ _ _ ha (by
        rintro rfl t ht; simp at ht; exact hab ⟨rfl, ht.1⟩)]
      simp [ha, ih]

theorem hasCrlf_cons_iff (cr lf a : α) (l : List α) :
    HasCrlf cr lf (a :: l) ↔ (a = cr ∧ ∃ s, l = lf :: s) ∨ HasCrlf cr lf l := by
  constructor
  · rintro ⟨p, s, h⟩
    cases p with
    | nil => simp at h; exact .inl ⟨h.1, s, h.2⟩
    | cons b p => simp at h; exact .inr ⟨p, s, h.2⟩
  · rintro (⟨rfl, s, rfl⟩ | ⟨p, s, rfl⟩)
    · exact ⟨[], s, rfl⟩
    · exact ⟨a :: p, s, rfl⟩

/-- First symbol of the normalised text is LF iff the text starts with LF or CR LF. -/
theorem replaceCrlf_head_lf (cr lf : α) (l : List α) :
    (∃ s, replaceCrlf cr lf l = lf :: s) ↔ (∃ s, l = lf :: s) ∨ (∃ s, l = cr :: lf :: s) := by
  fun_induction replaceCrlf cr lf l with
  | case1 => simp
  | case2 => simp
  | case3 a b rest hab ih => obtain ⟨rfl, rfl⟩ := hab; simp
  | case4 a b rest hab ih =>
    constructor
    · rintro ⟨s, h⟩; simp at h; exact .inl ⟨_, by rw [h.1]⟩
    · rintro (⟨s, h⟩ | ⟨s, h⟩)
      · simp at h; exact ⟨_, by rw [h.1]⟩
      · simp at h; exact absurd ⟨h.1, h.2.1⟩ hab

theorem hasCrlf_replaceCrlf_iff (cr lf : α) (hne : cr ≠ lf) (l : List α) :
    HasCrlf cr lf (replaceCrlf cr lf l) ↔ ∃ p s, l = p ++ cr :: cr :: lf :: s := by
  fun_induction replaceCrlf cr lf l with
  | case1 =>
    constructor
    · rintro ⟨p, s, h⟩; simp at h
    · rintro ⟨p, s, h⟩; simp at h
  | case2 a =>
    constructor
    · rintro ⟨p, s, h⟩; have := congrArg List.length h; simp at this; omega
    · rintro ⟨p, s, h⟩; have := congrArg List.length h; simp at this; omega
  | case3 a b rest hab ih =>
    obtain ⟨rfl, rfl⟩ := hab
    rw [hasCrlf_cons_iff, ih]
    constructor
    · rintro (⟨h, _⟩ | ⟨p, s, rfl⟩)
      · exact absurd h.symm hne
      · exact ⟨a :: b :: p, s, rfl⟩
    · rintro ⟨p, s, h⟩
      right
      cases p with
      | nil => simp at h; exact absurd h.1.symm hne
      | cons c p =>
        cases p with
        | nil => simp at h; exact absurd h.2.1.symm hne
        | cons d p => simp at h; exact ⟨p, s, h.2.2⟩
  | case4 a b rest hab ih =>
    rw [hasCrlf_cons_iff, ih, replaceCrlf_head_lf]
    constructor
    · rintro (⟨rfl, (⟨s, h⟩ | ⟨s, h⟩)⟩ | ⟨p, s, h⟩)
      · simp at h; exact absurd ⟨rfl, h.1⟩ hab
      · exact ⟨[], s, by simp [h]⟩
      · exact ⟨a :: p, s, by simp [h]⟩
    · rintro ⟨p, s, h⟩
      cases p with
      | nil => simp at h; exact .inl ⟨h.1, .inr ⟨s, by simp [h.2]⟩⟩
      | cons c p => simp at h; exact .inr ⟨p, s, h.2⟩

end Generic
end Verif.LineEnding
