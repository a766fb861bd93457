import Verif.Lemmas.TextEditBuilder

/-!
# C03 – C07: text edits and diffs

`Edits 0 is old new` (Spec/TextEdit.lean) is the one-pass meaning of an edit.
-/

namespace Verif.TextEdit
open Verif.Text

/-! ## C03: applying an edit -/

/-- C03: for sorted disjoint replacements, `apply` succeeds with result `new` exactly if `new` is the
simultaneous replacement of the ranges of `old` (in particular: no panic for in-bounds ranges on
character boundaries, and the length assertion inside `apply` never fires). -/
theorem C03_apply_iff (is : List Indel) (hs : Sorted is) (old new : List Char) :
    apply is old = some new ↔ Edits 0 is old new :=
  apply_eq_some_iff is hs old new

/-- C03: with all range ends on character boundaries there is no panic. -/
theorem C03_apply_total (is : List Indel) (hs : Sorted is) (old : List Char)
    (hb : ∀ i ∈ is, Boundary old i.delete.start ∧ Boundary old i.delete.stop) :
    ∃ new, apply is old = some new ∧ Edits 0 is old new := by
  obtain ⟨new, h⟩ := exists_edits is hs 0 old [] rfl (by simp) (by simpa using hb)
  exact ⟨new, h.apply, h⟩

/-- C03: length bookkeeping. -/
theorem C03_apply_length (is : List Indel) (hs : Sorted is) (old new : List Char)
    (h : apply is old = some new) :
    size new + (is.map fun i => i.delete.stop - i.delete.start).sum =
      size old + (is.map fun i => size i.insert).sum :=
  ((C03_apply_iff is hs old new).mp h).size

/-- Three replacements on a text with a two-byte character. -/
def exIndels : List Indel :=
  [⟨"X".toList, ⟨0, 1, by omega⟩⟩, ⟨"é".toList, ⟨1, 1, by omega⟩⟩, ⟨[], ⟨3, 5, by omega⟩⟩]

example : Sorted exIndels ∧ apply exIndels "aécde".toList = some "Xéée".toList := by
  refine ⟨?_, by decide⟩
  simp [Sorted, exIndels]

/-! ## C04: the builder -/

/-- C04: the builder panics exactly if two of the ranges conflict (overlap without being equal). -/
theorem C04_build_panics_iff (calls : List Indel) :
    build calls = none ↔
      ¬ calls.Pairwise (fun a b =>
        a.delete.stop ≤ b.delete.start ∨ b.delete.stop ≤ a.delete.start ∨ a = b) := by
  have h : (∃ r, build calls = some r) ↔ calls.Pairwise (fun a b =>
        a.delete.stop ≤ b.delete.start ∨ b.delete.stop ≤ a.delete.start ∨ a = b) :=
    build_isSome_iff calls
  rw [← h]
  cases build calls <;> simp

/-- C04, full statement for callers that never issue the same non-empty replacement twice: the
resulting edit is sorted, neighbours do not even touch, and it has the effect of the calls sorted by
range, where calls at the same position keep their order (`s`). The hypothesis is needed, see
`C04_duplicate_calls_conflict`. -/
theorem C04_build_valid_partial (calls r : List Indel) (h : build calls = some r)
    (hdup : calls.Pairwise fun a b => a = b → a.delete.start = a.delete.stop) :
    r.Pairwise (fun a b => a.delete.stop < b.delete.start) ∧
    ∃ s, s.Perm calls ∧ Sorted s ∧
      (∀ a b, a.delete.start = b.delete.start → a.delete.stop = b.delete.stop →
        List.Sublist [a, b] calls → List.Sublist [a, b] s) ∧
      ∀ old new, Edits 0 s old new → Edits 0 r old new := by
  obtain ⟨s, hst, hord, rfl⟩ := build_some h
  have hs : Sorted s := by
    have hdup' : s.Pairwise fun a b => a = b → a.delete.start = a.delete.stop :=
      (hst.1.pairwise_iff (fun {a b} h e => by have := h e.symm; rw [← e] at *; exact this)).mpr hdup
    refine (hord.and hdup').imp ?_
    rintro a b ⟨h1 | rfl, h2⟩
    · exact h1
    · have := h2 rfl; omega
  refine ⟨coalesce_strict s hs, s, hst.1, hs, ?_, fun old new he => he.coalesce⟩
  intro a b h1 h2 hab
  exact hst.2 a b ((keyLe_iff _ _).mpr (.inr ⟨h1, by omega⟩)) hab

example : (build exIndels.reverse).isSome ∧
    exIndels.reverse.Pairwise fun a b => a = b → a.delete.start = a.delete.stop := by
  refine ⟨by decide, ?_⟩
  simp [exIndels]

/-- C04 (the full claim is false): issuing one deletion twice is accepted by the builder, but the
produced edit has two overlapping ranges, so it violates the type's invariant ("disjoint and
sorted") and applying it deletes text outside of the requested ranges. -/
theorem C04_duplicate_calls_conflict :
    ∃ calls r, build calls = some r ∧ ¬ Sorted r ∧
      (∀ i ∈ calls, i.delete.stop ≤ 1) ∧ apply r "abc".toList = some "c".toList := by
  refine ⟨[⟨[], ⟨0, 1, by omega⟩⟩, ⟨[], ⟨0, 1, by omega⟩⟩], [⟨[], ⟨0, 1, by omega⟩⟩, ⟨[], ⟨0, 1, by omega⟩⟩], by decide, ?_, ?_, ?_⟩
  · simp [Sorted]
  · decide
  · decide

/-- C04, when: the first sixteen calls are checked at once, so a conflict among them is a panic of the call that
makes it; any other conflict only shows in `finish` (`C04_build_panics_iff`). -/
theorem C04_early (calls : List Indel) :
    calls.foldlM builderIndel [] = none ↔
      ¬ (calls.take 16).Pairwise (fun a b =>
        a.delete.stop ≤ b.delete.start ∨ b.delete.stop ≤ a.delete.start ∨ a = b) := by
  have h := builder_fold_none (calls := calls) (StableOf.refl []) (by simp)
  rw [List.nil_append] at h
  exact h

/-- The second call overlaps the first: a panic. The same two calls after sixteen others pass until `finish`. -/
example : let a : Indel := ⟨[], ⟨40, 42, by omega⟩⟩
    let b : Indel := ⟨[], ⟨41, 43, by omega⟩⟩
    let others : List Indel := (List.range 16).map fun n => ⟨['x'], ⟨n, n, by omega⟩⟩
    [a, b].foldlM builderIndel [] = none ∧ (((others ++ [a, b]).foldlM builderIndel []).isSome ∧
      build (others ++ [a, b]) = none) := by decide +kernel

/-! ## C05: diff -/

/-- C05: whatever chunks the diff library returns, as long as they re-assemble to `left` and
`right`, `diff` does not panic and returns a valid edit of `left` whose application gives `right`. -/
theorem C05_diff_correct (chunks : List Chunk) (left right : List Char)
    (hl : chunks.flatMap Chunk.leftText = left) (hr : chunks.flatMap Chunk.rightText = right) :
    ∃ e, diffOf chunks = some e ∧ apply e left = some right ∧ Edits 0 e left right ∧
      e.Pairwise (fun a b => a.delete.stop < b.delete.start) := by
  subst hl hr
  have h := edits_diffCalls chunks 0
  have hb := build_sorted h.sorted.1
  exact ⟨_, hb, h.coalesce.apply, h.coalesce, coalesce_strict _ h.sorted.1⟩

example : ([.equal ['a'], .delete ['b'], .insert ['c', 'd'], .insert ['e'], .delete ['f']] :
      List Chunk).flatMap Chunk.leftText = "abf".toList ∧
    diffOf [.equal ['a'], .delete ['b'], .insert ['c', 'd'], .insert ['e'], .delete ['f']] =
      some [⟨"cde".toList, ⟨1, 3, by omega⟩⟩] := by decide

/-! ## C06: union -/

/-- C06: on failure nothing changes and the other edit is handed back. -/
theorem C06_union_failure (self other self' e : List Indel)
    (h : union self other = (self', some e)) : self' = self ∧ e = other := by
  unfold union at h
  simp only at h
  split at h <;> simp_all

/-- C06: on success of merging two valid edits: no two ranges conflict, the result is a valid edit
consisting of exactly the replacements of both, every insertion is kept with its multiplicity (equal
deletions are kept once, since a valid edit cannot contain one twice), and the result is applicable
to every text to which both edits are applicable. -/
theorem C06_union_success (self other r : List Indel) (h : union self other = (r, none)) :
    Sorted r ∧ (∀ i, i ∈ r ↔ i ∈ self ∨ i ∈ other) ∧
    (∀ i, i.delete.start = i.delete.stop → r.count i = self.count i + other.count i) ∧
    (∀ i ∈ self, ∀ j ∈ other,
      i.delete.stop ≤ j.delete.start ∨ j.delete.stop ≤ i.delete.start ∨ i = j) ∧
    (∀ old n₁ n₂, apply self old = some n₁ → Sorted self → apply other old = some n₂ →
      Sorted other → ∃ new, apply r old = some new ∧ Edits 0 r old new) := by
  unfold union at h
  simp only at h
  split at h
  · rename_i hc
    simp at h
    subst h
    have hord := (checkDisjoint_iff _).mp hc
    have hsorted := dedup_sorted _ hord
    have hmem : ∀ i, i ∈ dedup (mergeBy self other) ↔ i ∈ self ∨ i ∈ other := by
      intro i
      rw [dedup_mem, (mergeBy_perm self other).mem_iff, List.mem_append]
    refine ⟨hsorted, hmem, ?_, ?_, ?_⟩
    · intro i hi
      rw [dedup_count _ _ hi, (mergeBy_perm self other).count_eq, List.count_append]
    · intro i hi j hj
      have hi' := (mergeBy_perm self other).mem_iff.mpr (List.mem_append_left other hi)
      have hj' := (mergeBy_perm self other).mem_iff.mpr (List.mem_append_right self hj)
      have hcomp : (mergeBy self other).Pairwise Compatible :=
        hord.imp (fun h => by
          rcases h with h | h
          · exact .inl h
          · exact .inr (.inr h))
      by_cases hij : i = j
      · exact .inr (.inr hij)
      · exact pairwise_forall (fun _ _ h => h.symm) hcomp hi' hj' hij
    · intro old n₁ n₂ h1 s1 h2 s2
      have b1 := ((C03_apply_iff self s1 old n₁).mp h1).boundary [] rfl
      have b2 := ((C03_apply_iff other s2 old n₂).mp h2).boundary [] rfl
      refine C03_apply_total _ hsorted old (fun i hi => ?_)
      rcases (hmem i).mp hi with h | h
      · exact b1 i h
      · exact b2 i h
  · simp at h

/-- C06: when merging succeeds, exactly: replacements of both edits are identical, or the one that starts first ends
before the other one starts. Of two with the same start the one of the receiver counts as the first, so that it has to be
an insertion. -/
theorem C06_union_succeeds_iff (self other : List Indel) (hs : Sorted self) (ho : Sorted other) :
    (union self other).2 = none ↔ ∀ i ∈ self, ∀ j ∈ other, i = j ∨
      (i.delete.start ≤ j.delete.start ∧ i.delete.stop ≤ j.delete.start) ∨
      (j.delete.start < i.delete.start ∧ j.delete.stop ≤ i.delete.start) := by
  have ordOf : ∀ {l : List Indel}, Sorted l → l.Pairwise OrdEq := fun h => h.imp (fun h => .inl h)
  have hu : (union self other).2 = none ↔ checkDisjoint (mergeBy self other) = true := by
    unfold union
    simp only
    split <;> simp_all
  rw [hu, checkDisjoint_iff, mergeBy_pairwise hs ho]
  constructor
  · rintro ⟨_, _, h⟩ i hi j hj
    rcases Nat.lt_or_ge j.delete.start i.delete.start with h1 | h1
    · rcases (h i hi j hj).2 h1 with h2 | h2
      · exact .inr (.inr ⟨h1, h2⟩)
      · exact .inl h2.symm
    · rcases (h i hi j hj).1 h1 with h2 | h2
      · exact .inr (.inl ⟨h1, h2⟩)
      · exact .inl h2
  · intro h
    refine ⟨ordOf hs, ordOf ho, fun i hi j hj => ?_⟩
    rcases h i hi j hj with rfl | h1 | h1
    · exact ⟨fun _ => .inr rfl, fun _ => .inr rfl⟩
    · exact ⟨fun _ => .inl h1.2, fun _ => by omega⟩
    · exact ⟨fun _ => by omega, fun _ => .inl h1.2⟩

/-- C06: success depends on the order of the arguments: an insertion at the start of a
replaced range can be merged in one order only, although the ranges do not overlap. -/
theorem C06_union_not_symmetric :
    ∃ a b, Sorted a ∧ Sorted b ∧ (union a b).2 = none ∧ (union b a).2 = some a := by
  refine ⟨[⟨['x'], ⟨0, 0, by omega⟩⟩], [⟨['y'], ⟨0, 3, by omega⟩⟩], ?_, ?_, ?_, ?_⟩
  · simp [Sorted]
  · simp [Sorted]
  · decide
  · decide

/-! ## C07: mapping an offset -/

/-- C07: for a valid edit and an offset `size a` on a character boundary of the old text
`a ++ b`: the mapping never panics; it reports "deleted" exactly if the offset is strictly inside a
replaced range; otherwise it returns the length of `a'`, where the new text is `a' ++ b'`, `a'` is
`a` edited by the replacements that start before the offset and `b'` is `b` edited by the remaining
replacements. -/
theorem C07_apply_to_offset (is : List Indel) (a b new : List Char)
    (h : Edits 0 is (a ++ b) new) :
    ((∃ i ∈ is, i.delete.start < size a ∧ size a < i.delete.stop) ∧
        applyToOffset is (size a) = some none) ∨
    ((∀ i ∈ is, ¬ (i.delete.start < size a ∧ size a < i.delete.stop)) ∧
      ∃ is₁ is₂ a' b', is = is₁ ++ is₂ ∧ new = a' ++ b' ∧
        applyToOffset is (size a) = some (some (size a')) ∧
        Edits 0 is₁ a a' ∧ Edits (size a) is₂ b b' ∧
        (∀ i ∈ is₁, i.delete.start < size a ∧ i.delete.stop ≤ size a) ∧
        (∀ i ∈ is₂, size a ≤ i.delete.start)) := by
  have := applyToOffset_go h a b rfl (size a) 0 (by simp)
  simpa [applyToOffset] using this

example : Edits 0 exIndels ("aé".toList ++ "cde".toList) "Xéée".toList ∧
    applyToOffset exIndels 3 = some (some 5) ∧ applyToOffset exIndels 4 = some none := by
  refine ⟨(C03_apply_iff _ ?_ _ _).mp (by decide), by decide, by decide⟩
  simp [Sorted, exIndels]

/-- C07, the builder's question: `invalidates_offset` is true exactly if the edit that is going to be built has
a range that contains the offset or ends there. -/
theorem C07_invalidates (calls e : List Indel) (h : build calls = some e) (n : Nat) :
    invalidatesOffset calls n = true ↔ ∃ i ∈ e, i.delete.start ≤ n ∧ n ≤ i.delete.stop := by
  obtain ⟨s, hst, _, rfl⟩ := build_some h
  rw [coalesce_covers]
  simp only [invalidatesOffset, List.any_eq_true, Bool.and_eq_true, decide_eq_true_eq, hst.1.mem_iff]

/-- C07: around an offset that is not invalidated nothing happens: the offset has a place in the new text, and the
characters before and after it are the old ones. -/
theorem C07_not_invalidated (calls e : List Indel) (h : build calls = some e) (a b new : List Char)
    (hn : invalidatesOffset calls (size a) = false) (he : Edits 0 e (a ++ b) new) :
    ∃ a' b', new = a' ++ b' ∧ applyToOffset e (size a) = some (some (size a')) ∧
      a'.getLast? = a.getLast? ∧ b'.head? = b.head? := by
  have hno : ∀ i ∈ e, ¬ (i.delete.start ≤ size a ∧ size a ≤ i.delete.stop) := fun i hi hc => by
    rw [(C07_invalidates calls e h (size a)).mpr ⟨i, hi, hc⟩] at hn
    exact absurd hn (by simp)
  rcases C07_apply_to_offset e a b new he with ⟨⟨i, hi, h1, h2⟩, _⟩ | ⟨_, i1, i2, a', b', rfl, rfl, h3, h4, h5, h6, h7⟩
  · exact absurd ⟨Nat.le_of_lt h1, Nat.le_of_lt h2⟩ (hno i hi)
  · refine ⟨a', b', rfl, h3, h4.last fun i hi => ?_, h5.head fun i hi => ?_⟩
    · have := hno i (List.mem_append_left _ hi)
      have := h6 i hi
      omega
    · have := hno i (List.mem_append_right _ hi)
      have := h7 i hi
      have := i.delete.le
      omega

example : let calls : List Indel := [⟨[], ⟨3, 4, by omega⟩⟩, ⟨['X'], ⟨0, 1, by omega⟩⟩]
    invalidatesOffset calls 2 = false ∧ invalidatesOffset calls 1 = true ∧ invalidatesOffset calls 3 = true ∧
      (build calls).bind (apply · "abcde".toList) = some "Xbce".toList := by decide

end Verif.TextEdit
