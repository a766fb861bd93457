import Verif.Lemmas.Typesets
import Verif.Lemmas.FormatLayout

/-!
# Layouts of the printer exist
-/

namespace Verif.Format
open Verif.Syntax

/-- A layout. `wide`: groups are printed on one line if nothing forbids it; `pick`: which variant is taken
of an element with several of them (the last one if there is no number). -/
def typeset (wide : Bool) (pick : Option Nat) (m : PMode) (i : Nat) : Doc → List El
  | .nil => []
  | .cat a b => typeset wide pick m i a ++ typeset wide pick m i b
  | .tok t => [.tok t]
  | .comment t => [.comment t]
  | .suffix l t => [.suffix l i t]
  | .space => [.space]
  | .pad => []
  | .line l => lineEls m i l
  | .rnl => [.rnl]
  | .indent d => typeset wide pick m (i + 1) d
  | .group ex d =>
    if m = .bare then typeset wide pick .bare i d
    else if wide && !ex && !(typeset wide pick .flat i d).any El.isNl then typeset wide pick .flat i d
    else typeset wide pick .expanded i d
  | .ifBreaks d => if m = .expanded then typeset wide pick m i d else []
  | .noSoft d => typeset wide pick .bare i d
  | .alt (.group false d) b =>
    if pick = some 0 then typeset wide pick (if m = .bare then .bare else .flat) i d
    else typeset wide (pick.map (· - 1)) m i b
  | .alt a b => if pick = some 0 then typeset wide pick m i a else typeset wide (pick.map (· - 1)) m i b
  | .cell d => inlineSuffixes (typeset wide pick .bare 0 d)
  | .verb x => x

/-- The elements that may refuse to be laid out do not. -/
def settles (wide : Bool) (pick : Option Nat) (m : PMode) (i : Nat) : Doc → Bool
  | .cat a b => settles wide pick m i a && settles wide pick m i b
  | .indent d => settles wide pick m (i + 1) d
  | .group ex d =>
    if m = .bare then settles wide pick .bare i d
    else if wide && !ex && !(typeset wide pick .flat i d).any El.isNl then settles wide pick .flat i d
    else settles wide pick .expanded i d
  | .ifBreaks d => settles wide pick m i d
  | .noSoft d =>
    settles wide pick .bare i d && (typeset wide pick .bare i d).all El.isInline && !d.willBreak
  | .alt (.group false d) b =>
    if pick = some 0 then settles wide pick (if m = .bare then .bare else .flat) i d
    else settles wide (pick.map (· - 1)) m i b
  | .alt a b => if pick = some 0 then settles wide pick m i a else settles wide (pick.map (· - 1)) m i b
  | .cell d => settles wide pick .bare 0 d && !(typeset wide pick .bare 0 d).any El.isNl
  | _ => true

theorem alt_other (wide : Bool) (pick : Option Nat) (m : PMode) (i : Nat) {a : Doc} (b : Doc)
    (h : ∀ d, a ≠ .group false d) :
    typeset wide pick m i (.alt a b) =
      (if pick = some 0 then typeset wide pick m i a else typeset wide (pick.map (· - 1)) m i b) ∧
    settles wide pick m i (.alt a b) =
      (if pick = some 0 then settles wide pick m i a else settles wide (pick.map (· - 1)) m i b) ∧
    ∀ es, Typesets m i (.alt a b) es ↔ Typesets m i a es ∨ Typesets m i b es := by
  cases a with
  | group ex d =>
    cases ex with
    | false => exact absurd rfl (h d)
    | true => exact ⟨rfl, rfl, fun _ => Iff.rfl⟩
  | _ => exact ⟨rfl, rfl, fun _ => Iff.rfl⟩

theorem typeset_typesets (wide : Bool) : ∀ (d : Doc) (pick : Option Nat) (m : PMode) (i : Nat),
    settles wide pick m i d = true → Typesets m i d (typeset wide pick m i d)
  | .cat a b, pick, m, i, h => by
    rw [settles, Bool.and_eq_true] at h
    exact ⟨_, _, rfl, typeset_typesets wide a _ _ _ h.1, typeset_typesets wide b _ _ _ h.2⟩
  | .indent d, pick, m, i, h => typeset_typesets wide d pick m (i + 1) h
  | .group ex d, pick, m, i, h => by
    rw [settles] at h
    rw [typeset]
    split
    · next hm =>
      rw [if_pos hm] at h
      subst hm
      exact ⟨.bare, by simp [inGroup], by simp, typeset_typesets wide d _ _ _ h⟩
    · next hm =>
      rw [if_neg hm] at h
      split
      · next hf =>
        rw [if_pos hf] at h
        simp only [Bool.and_eq_true, Bool.not_eq_true'] at hf
        refine ⟨.flat, ?_, fun _ => hf.2, typeset_typesets wide d _ _ _ h⟩
        simp [inGroup, hm, hf.1.2]
      · next hf =>
        rw [if_neg hf] at h
        exact ⟨.expanded, by simp [inGroup, hm], by simp, typeset_typesets wide d _ _ _ h⟩
  | .ifBreaks d, pick, m, i, h => by
    rw [typeset]
    split
    · next hm => exact .inl ⟨hm, typeset_typesets wide d pick m i h⟩
    · next hm => exact .inr ⟨hm, rfl⟩
  | .noSoft d, pick, m, i, h => by
    rw [settles] at h
    simp only [Bool.and_eq_true, Bool.not_eq_true'] at h
    exact ⟨typeset_typesets wide d _ _ _ h.1.1, h.1.2, h.2⟩
  | .cell d, pick, m, i, h => by
    rw [settles] at h
    simp only [Bool.and_eq_true, Bool.not_eq_true'] at h
    exact ⟨_, typeset_typesets wide d _ _ _ h.1, h.2, rfl⟩
  | .alt a b, pick, m, i, h => by
    by_cases ha : ∃ d, a = .group false d
    · obtain ⟨d, rfl⟩ := ha
      rw [settles] at h
      rw [typeset, Typesets]
      by_cases hp : pick = some 0
      · rw [if_pos hp] at h ⊢
        exact .inl (typeset_typesets wide d _ _ _ h)
      · rw [if_neg hp] at h ⊢
        exact .inr (typeset_typesets wide b _ _ _ h)
    · obtain ⟨e1, e2, e3⟩ := alt_other wide pick m i b (fun d h => ha ⟨d, h⟩)
      rw [e2] at h
      rw [e1, e3]
      by_cases hp : pick = some 0
      · rw [if_pos hp] at h ⊢
        exact .inl (typeset_typesets wide a _ _ _ h)
      · rw [if_neg hp] at h ⊢
        exact .inr (typeset_typesets wide b _ _ _ h)
  | .nil, pick, m, i, h => rfl
  | .tok _, pick, m, i, h => rfl
  | .comment _, pick, m, i, h => rfl
  | .suffix _ _, pick, m, i, h => rfl
  | .space, pick, m, i, h => rfl
  | .pad, pick, m, i, h => ⟨0, rfl⟩
  | .line _, pick, m, i, h => rfl
  | .rnl, pick, m, i, h => rfl
  | .verb _, pick, m, i, h => rfl

/-- In the last variants nothing refuses to be laid out. -/
theorem solid_settles (wide : Bool) : ∀ (d : Doc) (m : PMode) (i : Nat), d.solid = true →
    settles wide none m i d = true
  | .cat a b, m, i, h => by
    simp only [Doc.solid, Bool.and_eq_true] at h
    rw [settles, solid_settles wide a m i h.1, solid_settles wide b m i h.2]
    rfl
  | .indent d, m, i, h => solid_settles wide d m (i + 1) h
  | .group ex d, m, i, h => by
    rw [settles]
    split
    · exact solid_settles wide d _ i h
    · split <;> exact solid_settles wide d _ i h
  | .ifBreaks d, m, i, h => solid_settles wide d m i h
  | .noSoft d, m, i, h => by cases h
  | .cell d, m, i, h => by cases h
  | .alt a b, m, i, h => by
    by_cases ha : ∃ d, a = .group false d
    · obtain ⟨d, rfl⟩ := ha
      exact solid_settles wide b m i h
    · rw [(alt_other wide none m i b (fun d h => ha ⟨d, h⟩)).2.1]
      exact solid_settles wide b m i h
  | .nil, m, i, h => rfl
  | .tok _, m, i, h => rfl
  | .comment _, m, i, h => rfl
  | .suffix _ _, m, i, h => rfl
  | .space, m, i, h => rfl
  | .pad, m, i, h => rfl
  | .line _, m, i, h => rfl
  | .rnl, m, i, h => rfl
  | .verb _, m, i, h => rfl

/-- Every file has layouts. -/
theorem typesets_fmtRoot (o : Opts) (x : Root) (wide : Bool) :
    Typesets .expanded 0 (fmtRoot o x) (typeset wide none .expanded 0 (fmtRoot o x)) :=
  typeset_typesets wide _ _ _ _ (solid_settles wide _ _ _ (fmtRoot_solid o x))

end Verif.Format
