import Verif.Lemmas.LineIndex

/-!
# C08: positions and offsets

A document is split at the cursor as `a ++ b`; `size a` is the byte offset of the cursor and
`posOf enc a` (Spec/LineIndex.lean) its editor position.
-/

namespace Verif.LineIndex
open Verif.Text

/-- C08: the server converts an offset on a character boundary to the position the protocol
defines (line feeds passed, code units since the last one). -/
theorem C08_offset_to_position (enc : Encoding) (a b : List Char) :
    positionFromOffset enc (new (a ++ b)) (size a) = some (posOf enc a) :=
  position_size enc a b

/-- C08: and back. -/
theorem C08_position_to_offset (enc : Encoding) (a b : List Char) :
    offsetFromPosition enc (new (a ++ b)) (posOf enc a) = some (size a) :=
  offset_posOf enc a b

/-- C08: round trip from an offset. -/
theorem C08_roundtrip (enc : Encoding) (a b : List Char) :
    (positionFromOffset enc (new (a ++ b)) (size a)).bind (offsetFromPosition enc (new (a ++ b))) =
      some (size a) := by
  rw [C08_offset_to_position, Option.bind_some, C08_position_to_offset]

/-- C08: document order of positions is the order of offsets; in particular different offsets have
different positions. -/
theorem C08_order (enc : Encoding) (t a b c d : List Char) (h1 : t = a ++ b) (h2 : t = c ++ d) :
    ∃ p q, positionFromOffset enc (new t) (size a) = some p ∧
      positionFromOffset enc (new t) (size c) = some q ∧
      (size a < size c ↔ p.lt q) ∧ (size a = size c ↔ p = q) := by
  refine ⟨posOf enc a, posOf enc c, by rw [h1]; exact position_size enc a b,
    by rw [h2]; exact position_size enc c d, ?_⟩
  have h : a ++ b = c ++ d := h1.symm.trans h2
  have irrefl : ∀ p : Pos, ¬ p.lt p := by intro p hp; unfold Pos.lt at hp; omega
  rcases Nat.lt_trichotomy (size a) (size c) with hlt | heq | hgt
  · obtain ⟨m, rfl, _⟩ := prefix_of_size_le h (by omega)
    have hm : m ≠ [] := by rintro rfl; simp at hlt
    have := posOf_lt enc a m hm
    refine ⟨iff_of_true hlt this, iff_of_false (by omega) ?_⟩
    intro e; rw [← e] at this; exact irrefl _ this
  · obtain ⟨rfl, _⟩ := append_inj_size h heq
    exact ⟨iff_of_false (by omega) (irrefl _), iff_of_true rfl rfl⟩
  · obtain ⟨m, rfl, _⟩ := prefix_of_size_le h.symm (by omega)
    have hm : m ≠ [] := by rintro rfl; simp at hgt
    have := posOf_lt enc c m hm
    refine ⟨iff_of_false (by omega) ?_, iff_of_false (by omega) ?_⟩
    · intro h; unfold Pos.lt at h this; omega
    · intro e; rw [e] at this; exact irrefl _ this

-- "aé\n🎉b|c" (cursor after `b`): byte offset 9, UTF-16 position (1, 3), UTF-32 position (1, 2)
example : size "aé\n🎉b".toList = 9 ∧
    positionFromOffset .utf16 (new "aé\n🎉bc".toList) 9 = some { line := 1, character := 3 } ∧
    positionFromOffset .utf32 (new "aé\n🎉bc".toList) 9 = some { line := 1, character := 2 } ∧
    offsetFromPosition .utf16 (new "aé\n🎉bc".toList) { line := 1, character := 3 } = some 9 := by
  decide

/-! ## C45: positions outside of the document -/

/-- C45 is false: a column past the end of a line is not clamped to the line end, it designates a
place on a later line. -/
theorem C45_column_not_clamped :
    ∃ t p, p.line = 0 ∧ offsetFromPosition .utf16 (new t) p = some (size "ab\nc".toList) ∧
      t = "ab\ncd".toList := by
  exact ⟨_, { line := 0, character := 4 }, rfl, by decide, rfl⟩

/-- C45, the part that holds: positions that exist in the document are converted exactly (that is
`C08_position_to_offset`), and a line number past the end is an error. Missing: clamping. -/
theorem C45_missing_line_partial (enc : Encoding) (t : List Char) (p : Pos)
    (h : t.count '\n' < p.line) : offsetFromPosition enc (new t) p = none := by
  have hlen : (new t).length = t.count '\n' + 1 := by
    have : ∀ (t : List Char) cur col, (newGo t cur col).length = t.count '\n' + 1 := by
      intro t
      induction t with
      | nil => intros; rfl
      | cons c t ih =>
        intro cur col
        by_cases hc : c = '\n'
        · subst hc; simp [newGo, ih]
        · simp [newGo, hc, ih]
    exact this t _ _
  have : (new t)[p.line]? = none := by
    rw [List.getElem?_eq_none_iff]; omega
  cases enc <;> simp [offsetFromPosition, lineColFromPosition, this]

example : offsetFromPosition .utf8 (new "a\nb".toList) { line := 2, character := 0 } = none := by decide

end Verif.LineIndex
