import Verif.Model.SortedStrings

/-!
# C13: function name lists behave as sets
-/

namespace Verif.SortedStrings

theorem sorted_mono (s : List String) (name : String)
    (h : s.Pairwise fun a b => (compare a b != .gt) = true) :
    s.Pairwise fun a b => (compare a name = .gt → compare b name = .gt) ∧
      (compare b name = .lt → compare a name = .lt) := by
  refine h.imp ?_
  intro a b hab
  have hle : (compare a b).isLE = true := by
    revert hab; cases compare a b <;> decide
  constructor
  · intro h1
    have : compare name a = .lt := Std.OrientedCmp.gt_iff_lt.mp h1
    exact Std.OrientedCmp.gt_iff_lt.mpr (Std.TransCmp.lt_of_lt_of_isLE this hle)
  · intro h1
    exact Std.TransCmp.lt_of_isLE_of_lt hle h1

theorem new_sorted (names : List String) :
    (new names).Pairwise fun a b => (compare a b != .gt) = true := by
  refine Sort.stableSort_pairwise ?_ ?_ names
  · intro a b c h1 h2
    have h1 : (compare a b).isLE = true := by revert h1; cases compare a b <;> decide
    have h2 : (compare b c).isLE = true := by revert h2; cases compare b c <;> decide
    have h3 := Std.TransCmp.isLE_trans h1 h2
    revert h3; cases compare a c <;> decide
  · intro a b
    cases h : compare a b with
    | lt => rfl
    | eq => rfl
    | gt => rw [Std.OrientedCmp.gt_iff_lt.mp h]; rfl

/-- C13: a name is recognised exactly if it was listed (any order, any multiplicity). -/
theorem C13_contains_iff (names : List String) (name : String) :
    contains (new names) name = true ↔ name ∈ names := by
  have hperm : (new names).Perm names := Sort.stableSort_perm _ _
  rw [← hperm.mem_iff]
  have hs := new_sorted names
  generalize new names = s at hs
  unfold contains
  rcases BinarySearch.binarySearchBy_spec s (fun p => compare p name) (sorted_mono s name hs) with
    ⟨i, a, h1, h2, h3⟩ | ⟨i, h1, h2, h3, h4⟩
  · rw [h1]
    have : a = name := Std.LawfulEqCmp.eq_of_compare h3
    subst this
    simp only [true_iff]
    exact List.mem_of_getElem? h2
  · rw [h1]
    simp only [Bool.false_eq_true, false_iff]
    intro hm
    rw [← List.take_append_drop i s, List.mem_append] at hm
    have hself : compare name name = .eq := Std.ReflCmp.compare_self
    rcases hm with hm | hm
    · have := h3 _ hm; simp only [hself] at this; cases this
    · have := h4 _ hm; simp only [hself] at this; cases this

/-- C13: the representation does not depend on the order in which names are written. -/
theorem C13_order_irrelevant (a b : List String) (h : a.Perm b) : new a = new b := by
  refine List.Perm.eq_of_pairwise (le := fun x y => (compare x y != .gt) = true) ?_
    (new_sorted a) (new_sorted b)
    ((Sort.stableSort_perm _ _).trans (h.trans (Sort.stableSort_perm _ _).symm))
  intro x y _ _ h1 h2
  cases hc : compare x y with
  | eq => exact Std.LawfulEqCmp.eq_of_compare hc
  | gt => rw [hc] at h1; exact absurd h1 (by decide)
  | lt => rw [Std.OrientedCmp.gt_iff_lt.mpr hc] at h2; exact absurd h2 (by decide)

/-- C13: merging the user's table names with the default ones recognises exactly the union. -/
theorem C13_merge_iff (user default : List String) (name : String) :
    contains (merge (new user) (new default)) name = true ↔ name ∈ user ∨ name ∈ default := by
  rw [merge, C13_contains_iff, List.mem_append]
  have h1 : (new user).Perm user := Sort.stableSort_perm _ _
  have h2 : (new default).Perm default := Sort.stableSort_perm _ _
  rw [h1.mem_iff, h2.mem_iff]

example : contains (merge (new ["z", "tribble", "a", "z"]) (new ["tribble", "fcase"])) "fcase" = true ∧
    contains (merge (new ["z", "tribble", "a", "z"]) (new ["tribble", "fcase"])) "b" = false := by
  decide +kernel

end Verif.SortedStrings
