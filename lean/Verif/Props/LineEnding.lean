import Verif.Lemmas.LineEnding
import Verif.Lemmas.Utf8

/-!
# C01, C02: line ending normalisation and detection
-/

namespace Verif.LineEnding

/-! ## C01 -/

/-- C01: on every byte string the in-place algorithm terminates without an out-of-bounds access
(`some`) and yields the text with every CR LF replaced by LF. -/
theorem C01_normalize_spec (x : List UInt8) :
    normalize 13 10 x = some (replaceCrlf 13 10 x) :=
  normalize_eq 13 10 (by decide) x

-- "a\r\r\nb\r\n" ↦ "a\r\nb\n"
example : normalize (13 : UInt8) 10 [97, 13, 13, 10, 98, 13, 10] = some [97, 13, 10, 98, 10] := by
  decide

/-- C01: nothing but carriage returns directly followed by a line feed is removed: the result is
the input filtered by position, keeping every symbol except a CR whose next symbol is LF. -/
theorem C01_removes_exactly (x : List UInt8) :
    normalize 13 10 x = some
      (((x.zip (x.tail.map some ++ [none])).filter
        (fun an => !(an.1 == 13 && an.2 == some 10))).map Prod.fst) := by
  rw [C01_normalize_spec]
  congr 1
  fun_induction replaceCrlf (13 : UInt8) 10 x with
  | case1 => rfl
  | case2 a => simp
  | case3 a b rest hab ih =>
    obtain ⟨rfl, rfl⟩ := hab
    cases rest with
    | nil => simp [ih]
    | cons c cs => simpa using ih
  | case4 a b rest hab ih =>
    have : (!(a == 13 && some b == some (10 : UInt8))) = true := by
      by_cases h1 : a = 13 <;> by_cases h2 : b = 10 <;> simp_all
    simp only [List.tail_cons, List.map_cons, List.cons_append, List.zip_cons_cons,
      List.filter_cons]
    simp only [this, if_true, List.map_cons]
    rw [ih]; simp

/-- C01: the borrowing variant agrees with the owning one. -/
theorem C01_normalize_ref (x : List UInt8) : normalizeRef 13 10 x = normalize 13 10 x := by
  unfold normalizeRef infer
  cases h : findCrlf (13 : UInt8) 10 x with
  | none => simp [C01_normalize_spec, findCrlf_none _ _ _ h]
  | some i => simp

/-- C01: the byte surgery never breaks UTF-8. Normalising the encoding of a text gives the
encoding of the text with its CRLF character pairs replaced. -/
theorem C01_utf8_safe (t : List Char) :
    normalize 13 10 (encode t) = some (encode (replaceCrlf '\r' '\n' t)) := by
  rw [C01_normalize_spec, replaceCrlf_encode]

/-- C01 (sharpness): the result still contains a CRLF pair exactly if the input contains
CR CR LF, so normalisation is not idempotent on such texts. -/
theorem C01_residual_crlf_iff (x : List UInt8) :
    (∃ y, normalize 13 10 x = some y ∧ HasCrlf 13 10 y) ↔
      ∃ p s, x = p ++ 13 :: 13 :: 10 :: s := by
  simp only [C01_normalize_spec, Option.some.injEq, exists_eq_left']
  exact hasCrlf_replaceCrlf_iff 13 10 (by decide) x

example : ∃ y, normalize (13 : UInt8) 10 [13, 13, 10] = some y ∧ normalize 13 10 y ≠ some y :=
  ⟨[13, 10], by decide, by decide⟩

/-! ## C02 -/

/-- C02: the automatic setting classifies a text as CRLF exactly if it contains a CRLF pair. -/
theorem C02_auto_crlf_iff (windows : Bool) (x : List Char) :
    Setting.finalize windows .auto x = .crlf ↔ HasCrlf '\r' '\n' x := by
  have h := findCrlf_none_iff '\r' '\n' x
  unfold Setting.finalize infer
  cases hf : findCrlf '\r' '\n' x with
  | none => simp [hf] at h; simp [h]
  | some i => simp [hf] at h; simp [h]

example : HasCrlf '\r' '\n' "a\nb\r\n".toList := ⟨['a', '\n', 'b'], [], rfl⟩

/-- C02: the line ending used for output under each setting: CRLF exactly if asked for, if the
automatic setting finds a CRLF pair in the source, or for the native setting on Windows. -/
theorem C02_setting (windows : Bool) (s : Setting) (x : List Char) :
    s.finalize windows x = .crlf ↔
      s = .crlf ∨ (s = .auto ∧ HasCrlf '\r' '\n' x) ∨ (s = .native ∧ windows = true) := by
  cases s with
  | auto => simpa using C02_auto_crlf_iff windows x
  | lf => simp [Setting.finalize]
  | crlf => simp [Setting.finalize]
  | native => cases windows <;> simp [Setting.finalize]

example : Setting.native.finalize true "a\nb".toList = .crlf ∧
    Setting.native.finalize false "a\r\nb".toList = .lf := by decide

/-- C02: a text without CRLF is left alone. -/
theorem C02_no_crlf_unchanged (x : List Char) (h : ¬ HasCrlf '\r' '\n' x) :
    normalize '\r' '\n' x = some x := by
  rw [normalize_eq _ _ (by decide), findCrlf_none _ _ _ ((findCrlf_none_iff _ _ _).mpr h)]

example : ¬ HasCrlf '\r' '\n' "a\rb\n".toList :=
  (findCrlf_none_iff _ _ _).mp (by decide)

/-- C02: converting LF to CRLF and normalising is the identity on every text. -/
theorem C02_normalize_toCrlf (x : List Char) :
    normalize '\r' '\n' (toCrlf '\r' '\n' x) = some x := by
  rw [normalize_eq _ _ (by decide), replaceCrlf_toCrlf _ _ (by decide)]

/-- C02: normalising and writing back as CRLF reproduces the text byte for byte exactly for those
texts in which every LF is preceded by a CR. -/
theorem C02_toCrlf_normalize_iff (x : List Char) :
    (normalize '\r' '\n' x).map (toCrlf '\r' '\n') = some x ↔ AllCrlf '\r' '\n' x := by
  rw [normalize_eq _ _ (by decide), Option.map_some, Option.some.injEq]
  exact toCrlf_replaceCrlf_iff '\r' '\n' (by decide) x

example : AllCrlf '\r' '\n' "a\r\r\nb\r\n".toList :=
  (toCrlf_replaceCrlf_iff '\r' '\n' (by decide) _).mp (by decide)

/-! ## C44 -/

/-- C44 is false for mixed endings: this file's first line ending is LF, but it is classified as
CRLF (one CRLF anywhere decides). -/
theorem C44_first_detected_false :
    ∃ x : List Char, ¬ FirstIsCrlf '\r' '\n' x ∧ ∀ w, Setting.finalize w .auto x = .crlf := by
  refine ⟨"a\nb\r\n".toList, ?_, fun w => by cases w <;> decide⟩
  rintro ⟨p, s, hp, h⟩
  match p, h with
  | [], h => simp at h
  | [_], h => simp at h
  | _ :: _ :: p, h => simp at h; simp [← h.2.1] at hp

/-- C44, the part that holds: for texts with consistent line endings (all LFs preceded by CR, or no
CRLF at all) and for texts whose first ending is CRLF, the automatic setting gives the first
detected ending. Missing: mixed texts whose first ending is LF, see `C44_first_detected_false`. -/
theorem C44_first_detected_partial (w : Bool) (x : List Char)
    (h : AllCrlf '\r' '\n' x ∨ ¬ HasCrlf '\r' '\n' x ∨ FirstIsCrlf '\r' '\n' x) :
    Setting.finalize w .auto x = .crlf ↔ FirstIsCrlf '\r' '\n' x := by
  rw [C02_auto_crlf_iff]
  constructor
  · intro hc
    rcases h with h | h | h
    · obtain ⟨p, s, rfl⟩ := hc
      -- split at the first LF
      have : ∀ y : List Char, '\n' ∈ y → ∃ p s, '\n' ∉ p ∧ y = p ++ '\n' :: s := by
        intro y
        induction y with
        | nil => simp
        | cons a y ih =>
          intro hy
          by_cases ha : a = '\n'
          · subst ha; exact ⟨[], y, by simp, rfl⟩
          · have : '\n' ∈ y := by
              rcases List.mem_cons.mp hy with h | h
              · exact absurd h.symm ha
              · exact h
            obtain ⟨p, s, h1, rfl⟩ := ih this
            exact ⟨a :: p, s, by simp [h1]; exact fun h => ha h.symm, rfl⟩
      obtain ⟨p', s', h1, h2⟩ := this (p ++ '\r' :: '\n' :: s) (by simp)
      obtain ⟨q, rfl⟩ := h _ _ h2
      exact ⟨q, s', fun hq => h1 (by simp [hq]), by simpa using h2⟩
    · exact absurd hc h
    · exact h
  · rintro ⟨p, s, _, rfl⟩
    exact ⟨p, s, rfl⟩

example : AllCrlf '\r' '\n' "a\r\nb\r\n".toList ∧ FirstIsCrlf '\r' '\n' "a\r\nb\r\n".toList :=
  ⟨(toCrlf_replaceCrlf_iff '\r' '\n' (by decide) _).mp (by decide), ['a'], ['b', '\r', '\n'],
    by decide, rfl⟩

end Verif.LineEnding
