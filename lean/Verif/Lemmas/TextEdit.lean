import Verif.Lemmas.Text
import Verif.Spec.TextEdit

namespace Verif.TextEdit
open Verif.Text

/-! ## The one-pass specification -/

theorem Edits.size {p : Nat} {is : List Indel} {old new : List Char} (h : Edits p is old new) :
    size new + (is.map fun i => i.delete.stop - i.delete.start).sum =
      size old + (is.map fun i => size i.insert).sum := by
  induction h with
  | done => simp
  | step hs he h ih =>
    rename_i p keep del rest new i is
    simp at ih ⊢
    omega

theorem Edits.sorted {p : Nat} {is : List Indel} {old new : List Char} (h : Edits p is old new) :
    Sorted is ∧ (∀ i ∈ is, p ≤ i.delete.start ∧ i.delete.stop ≤ p + Text.size old) := by
  induction h with
  | done => simp [Sorted]
  | step hs he h ih =>
    rename_i p keep del rest new i is
    obtain ⟨h1, h2⟩ := ih
    refine ⟨?_, ?_⟩
    · refine List.Pairwise.cons ?_ h1
      intro b hb
      have := (h2 b hb).1
      omega
    · intro j hj
      simp at hj
      rcases hj with rfl | hj
      · simp; omega
      · have := h2 j hj
        simp; omega

theorem applySeq_append (xs ys : List Indel) (t : List Char) :
    applySeq (xs ++ ys) t = (applySeq xs t).bind (applySeq ys) := by
  induction xs generalizing t with
  | nil => rfl
  | cons x xs ih =>
    simp only [List.cons_append, applySeq]
    cases x.apply t with
    | none => rfl
    | some r => simp [ih]

theorem Indel.apply_append (i : Indel) (a d c : List Char) (hs : i.delete.start = Text.size a)
    (he : i.delete.stop = Text.size a + Text.size d) :
    i.apply (a ++ d ++ c) = some (a ++ i.insert ++ c) := by
  unfold Indel.apply
  rw [hs, he]
  exact replaceRange_append _ _ _ _

theorem Edits.applySeq_reverse {p : Nat} {is : List Indel} {old new : List Char}
    (h : Edits p is old new) (pre : List Char) (hp : Text.size pre = p) :
    applySeq is.reverse (pre ++ old) = some (pre ++ new) := by
  induction h generalizing pre with
  | done => simp [applySeq]
  | step hs he h ih =>
    rename_i p keep del rest new i is
    have := ih (pre ++ keep ++ del) (by simp [hp]; omega)
    rw [List.reverse_cons, applySeq_append]
    have e : pre ++ (keep ++ del ++ rest) = pre ++ keep ++ del ++ rest := by simp
    rw [e, this]
    simp only [Option.bind_some, applySeq]
    have := Indel.apply_append i (pre ++ keep) del new (by simp [hp, hs]) (by simp [hp, he])
    rw [this]
    simp [applySeq]

theorem Edits.totalLen {p : Nat} {is : List Indel} {old new : List Char}
    (h : Edits p is old new) (n : Nat) :
    TextEdit.totalLen is (n + Text.size old) = some (n + Text.size new) := by
  induction h generalizing n with
  | done => rfl
  | step hs he h ih =>
    rename_i p keep del rest new i is
    simp only [TextEdit.totalLen]
    have hd : i.delete.stop - i.delete.start = Text.size del := by omega
    simp only [hd, Text.size_append]
    rw [if_pos (by omega)]
    have e : n + (Text.size keep + Text.size del + Text.size rest) + Text.size i.insert
        - Text.size del = (n + Text.size keep + Text.size i.insert) + Text.size rest := by omega
    rw [e, ih]
    simp; omega

theorem Edits.apply {is : List Indel} {old new : List Char} (h : Edits 0 is old new) :
    TextEdit.apply is old = some new := by
  have h1 := h.applySeq_reverse [] rfl
  have h2 := h.totalLen 0
  simp at h1 h2
  unfold TextEdit.apply
  split
  · simpa [applySeq] using h1
  · simpa [applySeq] using h1
  · simp [h1, h2]

/-- A sorted list all of whose range ends are boundaries denotes an edit. -/
theorem exists_edits (is : List Indel) (hs : Sorted is) (p : Nat) (old pre : List Char)
    (hp : Text.size pre = p) (hlow : ∀ i ∈ is, p ≤ i.delete.start)
    (hb : ∀ i ∈ is, Boundary (pre ++ old) i.delete.start ∧ Boundary (pre ++ old) i.delete.stop) :
    ∃ new, Edits p is old new := by
  induction is generalizing p old pre with
  | nil => exact ⟨old, .done _ _⟩
  | cons i is ih =>
    obtain ⟨⟨a, b, h1, h2⟩, ⟨c, d, h3, h4⟩⟩ := hb i (by simp)
    have hl := hlow i (by simp)
    obtain ⟨keep, hk1, hk2⟩ := prefix_of_size_le (h1) (by omega)
    obtain ⟨del, hd1, hd2⟩ := prefix_of_size_le (h1.symm.trans h3) (by have := i.delete.le; omega)
    obtain ⟨hsi, hss⟩ := List.pairwise_cons.mp hs
    have hsz1 : i.delete.start = p + Text.size keep := by rw [← h2, hk1]; simp [hp]
    have hsz2 : i.delete.stop = p + Text.size keep + Text.size del := by
      rw [← h4, hd1, hk1]; simp [hp]; omega
    have e : pre ++ old = (pre ++ keep ++ del) ++ d := by rw [h3, hd1, hk1]
    obtain ⟨new, hn⟩ := ih hss (p + Text.size keep + Text.size del) d (pre ++ keep ++ del)
      (by simp [hp]; omega) (fun j hj => by have := hsi j hj; omega)
      (fun j hj => by rw [← e]; exact hb j (by simp [hj]))
    have e2 : old = keep ++ del ++ d := by rw [hk2, hd2]; simp
    exact ⟨keep ++ i.insert ++ new, e2 ▸ Edits.step hsz1 hsz2 hn⟩

theorem Edits.boundary {p : Nat} {is : List Indel} {old new : List Char} (h : Edits p is old new)
    (pre : List Char) (hp : Text.size pre = p) :
    ∀ i ∈ is, Boundary (pre ++ old) i.delete.start ∧ Boundary (pre ++ old) i.delete.stop := by
  induction h generalizing pre with
  | done => simp
  | step hs he h ih =>
    rename_i p keep del rest new i is
    intro j hj
    simp at hj
    rcases hj with rfl | hj
    · exact ⟨⟨pre ++ keep, del ++ rest, by simp, by simp [hp, hs]⟩,
        ⟨pre ++ keep ++ del, rest, by simp, by simp [hp, he]; omega⟩⟩
    · have := ih (pre ++ keep ++ del) (by simp [hp]; omega) j hj
      simpa using this

/-- Sequential reverse application of a sorted list that succeeds is a valid edit. -/
theorem boundary_of_applySeq (is : List Indel) (hs : Sorted is) (t r : List Char)
    (h : applySeq is.reverse t = some r) :
    ∀ i ∈ is, Boundary t i.delete.start ∧ Boundary t i.delete.stop := by
  induction is generalizing t r with
  | nil => simp
  | cons i is ih =>
    obtain ⟨hsi, hss⟩ := List.pairwise_cons.mp hs
    rw [List.reverse_cons, applySeq_append] at h
    cases hr : applySeq is.reverse t with
    | none => simp [hr] at h
    | some m =>
      have hb := ih hss t m hr
      rw [hr] at h
      simp only [Option.bind_some, applySeq] at h
      obtain ⟨new, hn⟩ := exists_edits is hss 0 t [] rfl (by simp) (by simpa using hb)
      have hm : m = new := by
        have := hn.applySeq_reverse [] rfl
        simp [hr] at this; exact this
      subst hm
      intro j hj
      simp at hj
      rcases hj with rfl | hj
      · -- the first range is untouched by the later replacements
        cases hja : j.apply m with
        | none => simp [hja] at h
        | some q =>
          obtain ⟨a, d, c, h1, h2, h3, h4⟩ := replaceRange_some hja
          -- `m` and `t` agree up to the first later range
          cases hn with
          | done => exact ⟨⟨a, d ++ c, by simp [h1], h2.symm⟩, ⟨a ++ d, c, h1, by simp [h3]⟩⟩
          | step hs' he' hrest =>
            rename_i keep del rest new i' is'
            have hle := hsi i' (by simp)
            have e : keep ++ (i'.insert ++ new) = (a ++ d) ++ c := by simpa using h1
            obtain ⟨x, hx1, hx2⟩ := prefix_of_size_le e.symm (by simp; omega)
            refine ⟨⟨a, d ++ x ++ del ++ rest, by simp [hx1], h2.symm⟩,
              ⟨a ++ d, x ++ del ++ rest, by simp [hx1], by simp [h3]⟩⟩
      · exact hb j hj

theorem apply_eq_some_iff (is : List Indel) (hs : Sorted is) (old new : List Char) :
    TextEdit.apply is old = some new ↔ Edits 0 is old new := by
  constructor
  · intro h
    have hseq : applySeq is.reverse old = some new := by
      unfold TextEdit.apply at h
      split at h
      · simpa [applySeq] using h
      · simpa [applySeq] using h
      · split at h
        · simp at h
        · split at h
          · simp at h
          · split at h
            · simp_all
            · simp at h
    have hb := boundary_of_applySeq is hs old new hseq
    obtain ⟨n, hn⟩ := exists_edits is hs 0 old [] rfl (by simp) (by simpa using hb)
    have := hn.applySeq_reverse [] rfl
    simp [hseq] at this
    exact this ▸ hn
  · exact Edits.apply

end Verif.TextEdit
