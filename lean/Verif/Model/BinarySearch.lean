/-!
# Binary search (`slice::binary_search_by` of the Rust standard library)

Transcription of the published implementation: halve `size`, move `base` up unless the probe is
greater, one comparison at the end. Not part of /repo; used by `SortedStrings` and `PathResolver`.
-/

namespace Verif.BinarySearch

variable {α : Type}

/-- The `while size > 1` loop; every iteration decreases `size`, so `fuel = size` suffices. (core::slice,
external; used in crates/settings/src/sorted_strings.rs:36-40) -/
def loop (f : Nat → Ordering) : Nat → Nat → Nat → Nat
  | 0, base, _ => base
  | fuel + 1, base, size =>
    if size > 1 then
      let half := size / 2
      let mid := base + half
      loop f fuel (if f mid = .gt then base else mid) (size - half)
    else base

/-- Comparison at an index. (core::slice, external; used in crates/settings/src/sorted_strings.rs:36-40) -/
def probe (l : List α) (f : α → Ordering) (i : Nat) : Ordering :=
  match l[i]? with
  | some a => f a
  | none => .gt

/-- `binary_search_by`: `ok i` is `Ok(i)`, `error i` is `Err(i)`. (core::slice, external; used in
crates/settings/src/sorted_strings.rs:36-40) -/
def binarySearchBy (l : List α) (f : α → Ordering) : Except Nat Nat :=
  if l.length = 0 then .error 0
  else
    match probe l f (loop (probe l f) l.length 0 l.length) with
    | .eq => .ok (loop (probe l f) l.length 0 l.length)
    | .lt => .error (loop (probe l f) l.length 0 l.length + 1)
    | .gt => .error (loop (probe l f) l.length 0 l.length)

theorem loop_spec (f : Nat → Ordering) (n : Nat)
    (mono : ∀ i j, i < j → j < n → (f i = .gt → f j = .gt)) (fuel base size : Nat)
    (hf : size ≤ fuel) (h1 : 1 ≤ size) (h2 : base + size ≤ n)
    (h3 : ∀ i, base + size ≤ i → i < n → f i = .gt) (h4 : base = 0 ∨ f base ≠ .gt) :
    let b := loop f fuel base size
    b < n ∧ (∀ i, b < i → i < n → f i = .gt) ∧ (b = 0 ∨ f b ≠ .gt) := by
  induction fuel generalizing base size with
  | zero => omega
  | succ fuel ih =>
    unfold loop
    split
    · rename_i hs
      by_cases hm : f (base + size / 2) = .gt
      · simp only [hm, if_true]
        refine ih base (size - size / 2) (by omega) (by omega) (by omega) ?_ h4
        intro i hi hn
        by_cases he : base + size / 2 = i
        · rw [← he]; exact hm
        · exact mono _ i (by omega) hn hm
      · simp only [hm, if_false]
        exact ih _ (size - size / 2) (by omega) (by omega) (by omega)
          (fun i hi hn => h3 i (by omega) hn) (.inr hm)
    · have : size = 1 := by omega
      subst this
      exact ⟨by omega, fun i hi hn => h3 i (by omega) hn, h4⟩

/-- The documented contract. -/
theorem binarySearchBy_spec (l : List α) (f : α → Ordering)
    (mono : l.Pairwise fun a b => (f a = .gt → f b = .gt) ∧ (f b = .lt → f a = .lt)) :
    (∃ i a, binarySearchBy l f = .ok i ∧ l[i]? = some a ∧ f a = .eq) ∨
    (∃ i, binarySearchBy l f = .error i ∧ i ≤ l.length ∧ (∀ a ∈ l.take i, f a = .lt) ∧
      ∀ a ∈ l.drop i, f a = .gt) := by
  unfold binarySearchBy
  by_cases hl : l.length = 0
  · right
    have : l = [] := List.length_eq_zero_iff.mp hl
    subst this
    exact ⟨0, by simp, by simp, by simp, by simp⟩
  · simp only [hl, if_false]
    generalize hg : probe l f = g
    have hget : ∀ i (h : i < l.length), g i = f l[i] := by
      intro i h; subst hg; simp [probe, h]
    have hmono := List.pairwise_iff_getElem.mp mono
    obtain ⟨h1, h2, h3⟩ := loop_spec g l.length
      (fun i j hij hj hi => by
        rw [hget i (by omega)] at hi; rw [hget j hj]; exact (hmono i j (by omega) hj hij).1 hi)
      l.length 0 l.length (Nat.le_refl _) (by omega) (by omega) (fun i hi hn => by omega) (.inl rfl)
    generalize hb : loop g l.length 0 l.length = b at h1 h2 h3 ⊢
    have hdrop : ∀ k, b < k → ∀ a ∈ l.drop k, f a = .gt := by
      intro k hk a ha
      obtain ⟨i, hi, rfl⟩ := List.mem_iff_getElem.mp ha
      simp at hi ⊢
      have := h2 (k + i) (by omega) (by omega)
      rwa [hget _ (by omega)] at this
    cases hgb : g b with
    | eq =>
      left
      refine ⟨b, l[b], by simp [hgb], by simp [h1], ?_⟩
      rw [← hget b h1]; exact hgb
    | lt =>
      right
      refine ⟨b + 1, by simp [hgb], by omega, ?_, hdrop _ (by omega)⟩
      intro a ha
      obtain ⟨i, hi, rfl⟩ := List.mem_iff_getElem.mp ha
      simp at hi ⊢
      rw [hget b h1] at hgb
      by_cases he : i = b
      · subst he; exact hgb
      · exact (hmono i b (by omega) h1 (by omega)).2 hgb
    | gt =>
      right
      have hb0 : b = 0 := by
        rcases h3 with h | h
        · exact h
        · exact absurd hgb h
      refine ⟨b, by simp [hgb], by omega, by simp [hb0], ?_⟩
      intro a ha
      obtain ⟨i, hi, rfl⟩ := List.mem_iff_getElem.mp ha
      simp at hi ⊢
      by_cases he : b + i = b
      · have : f l[b] = .gt := by rw [← hget b h1]; exact hgb
        simpa [he] using this
      · have := h2 (b + i) (by omega) (by omega)
        rwa [hget _ (by omega)] at this

end Verif.BinarySearch
