import Verif.Model.Text

namespace Verif.Text

@[simp] theorem size_nil : size [] = 0 := rfl
@[simp] theorem size_cons (c : Char) (t : List Char) : size (c :: t) = c.utf8Size + size t := by
  simp [size]
@[simp] theorem size_append (a b : List Char) : size (a ++ b) = size a + size b := by
  simp [size]

theorem size_eq_zero {t : List Char} : size t = 0 ↔ t = [] := by
  cases t with
  | nil => simp
  | cons c t => have := Char.utf8Size_pos c; simp; omega

@[simp] theorem splitAt_zero (t : List Char) : splitAt t 0 = some ([], t) := by
  cases t <;> rfl

theorem splitAt_append (a b : List Char) : splitAt (a ++ b) (size a) = some (a, b) := by
  induction a with
  | nil => simp
  | cons c a ih =>
    have hp := Char.utf8Size_pos c
    obtain ⟨k, hk⟩ : ∃ k, c.utf8Size + size a = k + 1 := ⟨c.utf8Size + size a - 1, by omega⟩
    simp only [size_cons, List.cons_append]
    rw [hk]
    unfold splitAt
    have : k + 1 - c.utf8Size = size a := by omega
    simp [this, ih]
    omega

theorem splitAt_some {t : List Char} {n : Nat} {a b : List Char} (h : splitAt t n = some (a, b)) :
    t = a ++ b ∧ size a = n := by
  fun_induction splitAt t n generalizing a b with
  | case1 t => simp at h; obtain ⟨rfl, rfl⟩ := h; simp
  | case2 => simp at h
  | case3 c cs n hle ih =>
    simp at h
    obtain ⟨a', hb, rfl⟩ := h
    obtain ⟨h1, h2⟩ := ih hb
    refine ⟨by simp [h1], ?_⟩
    simp [h2]; omega
  | case4 => simp at h

theorem splitAt_eq_some_iff {t : List Char} {n : Nat} {a b : List Char} :
    splitAt t n = some (a, b) ↔ t = a ++ b ∧ size a = n := by
  constructor
  · exact splitAt_some
  · rintro ⟨rfl, rfl⟩; exact splitAt_append a b

/-- Two prefixes of one text are ordered by their size. -/
theorem prefix_of_size_le {a b c d : List Char} (h : a ++ b = c ++ d) (hs : size a ≤ size c) :
    ∃ m, c = a ++ m ∧ b = m ++ d := by
  rcases List.append_eq_append_iff.mp h with ⟨m, h1, h2⟩ | ⟨m, h1, h2⟩
  · exact ⟨m, h1, h2⟩
  · subst h1
    simp at hs
    have : m = [] := size_eq_zero.mp (by omega)
    subst this
    exact ⟨[], by simp, by simpa using h2.symm⟩

theorem append_inj_size {a b c d : List Char} (h : a ++ b = c ++ d) (hs : size a = size c) :
    a = c ∧ b = d := by
  obtain ⟨m, h1, h2⟩ := prefix_of_size_le h (by omega)
  subst h1
  simp at hs
  have : m = [] := size_eq_zero.mp (by omega)
  subst this
  exact ⟨by simp, by simpa using h2⟩

theorem replaceRange_append (a d c ins : List Char) :
    replaceRange (a ++ d ++ c) (size a) (size a + size d) ins = some (a ++ ins ++ c) := by
  unfold replaceRange
  have h1 : splitAt (a ++ d ++ c) (size a) = some (a, d ++ c) := by
    rw [List.append_assoc]; exact splitAt_append _ _
  have h2 : splitAt (a ++ d ++ c) (size a + size d) = some (a ++ d, c) := by
    rw [← size_append]; exact splitAt_append _ _
  rw [if_pos (by omega), h1, h2]

theorem replaceRange_some {t : List Char} {s e : Nat} {ins r : List Char}
    (h : replaceRange t s e ins = some r) :
    ∃ a d c, t = a ++ d ++ c ∧ s = size a ∧ e = size a + size d ∧ r = a ++ ins ++ c := by
  unfold replaceRange at h
  split at h
  · rename_i hle
    split at h
    · rename_i a _ _ d h1 h2
      simp at h
      obtain ⟨e1, e2⟩ := splitAt_some h1
      obtain ⟨e3, e4⟩ := splitAt_some h2
      obtain ⟨m, h3, h4⟩ := prefix_of_size_le (e1.symm.trans e3) (by omega)
      refine ⟨a, m, d, by rw [e3, h3], e2.symm, ?_, by simp [← h]⟩
      rw [← e4, h3]; simp
    · simp at h
  · simp at h

end Verif.Text
