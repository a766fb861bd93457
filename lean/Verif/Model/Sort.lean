/-!
# Stable sorting

`slice::sort_by`, `slice::sort_by_key` (stable) are modelled by insertion sort. For a total preorder
the result of a stable sort is unique, so this is the documented behaviour; the lemmas below are the
contract that proofs use.
-/

namespace Verif.Sort

variable {α : Type}

/-- Insert before the first element that is not smaller. (std, external; used in
crates/aether_lsp_utils/src/text_edit.rs:210-214, crates/settings/src/sorted_strings.rs:25-29) -/
def orderedInsert (le : α → α → Bool) (x : α) : List α → List α
  | [] => [x]
  | y :: ys => if le x y then x :: y :: ys else y :: orderedInsert le x ys

/-- Stable sort by `le`. (std, external; used in crates/aether_lsp_utils/src/text_edit.rs:210-214,
crates/settings/src/sorted_strings.rs:25-29) -/
def stableSort (le : α → α → Bool) : List α → List α
  | [] => []
  | x :: xs => orderedInsert le x (stableSort le xs)

theorem orderedInsert_perm (le : α → α → Bool) (x : α) (l : List α) :
    (orderedInsert le x l).Perm (x :: l) := by
  induction l with
  | nil => simp [orderedInsert]
  | cons y ys ih =>
    unfold orderedInsert
    split
    · exact .refl _
    · exact (ih.cons y).trans (.swap _ _ _)

theorem stableSort_perm (le : α → α → Bool) (l : List α) : (stableSort le l).Perm l := by
  induction l with
  | nil => exact .refl _
  | cons x xs ih => exact (orderedInsert_perm le x _).trans (ih.cons x)

theorem orderedInsert_pairwise {le : α → α → Bool}
    (trans : ∀ a b c, le a b = true → le b c = true → le a c = true)
    (total : ∀ a b, (le a b || le b a) = true) (x : α) (l : List α)
    (h : l.Pairwise fun a b => le a b = true) :
    (orderedInsert le x l).Pairwise fun a b => le a b = true := by
  induction l with
  | nil => simp [orderedInsert]
  | cons y ys ih =>
    obtain ⟨h1, h2⟩ := List.pairwise_cons.mp h
    unfold orderedInsert
    split
    · rename_i hxy
      refine List.Pairwise.cons (fun z hz => ?_) h
      simp at hz
      rcases hz with rfl | hz
      · exact hxy
      · exact trans _ _ _ hxy (h1 z hz)
    · rename_i hxy
      refine List.Pairwise.cons (fun z hz => ?_) (ih h2)
      have hz := (orderedInsert_perm le x ys).mem_iff.mp hz
      simp at hz
      rcases hz with rfl | hz
      · have := total z y; simp [hxy] at this; exact this
      · exact h1 z hz

theorem stableSort_pairwise {le : α → α → Bool}
    (trans : ∀ a b c, le a b = true → le b c = true → le a c = true)
    (total : ∀ a b, (le a b || le b a) = true) (l : List α) :
    (stableSort le l).Pairwise fun a b => le a b = true := by
  induction l with
  | nil => simp [stableSort]
  | cons x xs ih => exact orderedInsert_pairwise trans total x _ ih

theorem orderedInsert_sublist (le : α → α → Bool) (x : α) (l : List α) :
    List.Sublist l (orderedInsert le x l) := by
  induction l with
  | nil => simp
  | cons y ys ih =>
    unfold orderedInsert
    split
    · simp
    · exact ih.cons_cons y

/-- An element is inserted before all elements that are not smaller. -/
theorem pair_sublist_orderedInsert {le : α → α → Bool} (x b : α) (l : List α) (hb : b ∈ l)
    (hxb : le x b = true) : List.Sublist [x, b] (orderedInsert le x l) := by
  induction l with
  | nil => simp at hb
  | cons y ys ih =>
    unfold orderedInsert
    split
    · exact List.Sublist.cons_cons x (by simpa using hb)
    · rename_i hxy
      have : b ≠ y := by rintro rfl; exact hxy hxb
      simp [this] at hb
      exact (ih hb).cons y

/-- Stability: pairs that are in order keep their relative position. -/
theorem pair_sublist_stableSort {le : α → α → Bool} (a b : α) (hab : le a b = true) (l : List α)
    (h : List.Sublist [a, b] l) : List.Sublist [a, b] (stableSort le l) := by
  induction l with
  | nil => simp at h
  | cons x xs ih =>
    cases h with
    | cons _ h => exact (ih h).trans (orderedInsert_sublist le x _)
    | cons_cons _ h =>
      exact pair_sublist_orderedInsert a b _
        ((stableSort_perm le xs).mem_iff.mpr (by simpa using h)) hab

theorem stableSort_of_pairwise {le : α → α → Bool} (l : List α)
    (h : l.Pairwise fun a b => le a b = true) : stableSort le l = l := by
  induction l with
  | nil => rfl
  | cons x xs ih =>
    obtain ⟨h1, h2⟩ := List.pairwise_cons.mp h
    simp only [stableSort, ih h2]
    cases xs with
    | nil => rfl
    | cons y ys => simp [orderedInsert, h1 y (by simp)]

end Verif.Sort
