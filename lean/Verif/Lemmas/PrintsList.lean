import Verif.Lemmas.Prints
import Verif.Lemmas.FormatLayout

/-!
# Listing the layouts of a document

For documents without padding there are finitely many. The list is used in examples, and to show that a
text is not among the layouts.
-/

namespace Verif.Format
open Verif.Syntax

/-- All layouts of a document without padding. -/
def layouts (m : PMode) (i : Nat) : Doc → List (List El)
  | .nil => [[]]
  | .cat a b => (layouts m i a).flatMap (fun x => (layouts m i b).map (x ++ ·))
  | .tok t => [[.tok t]]
  | .comment t => [[.comment t]]
  | .suffix l t => [[.suffix l i t]]
  | .space => [[.space]]
  | .pad => []
  | .line l => [lineEls m i l]
  | .rnl => [[.rnl]]
  | .indent d => layouts m (i + 1) d
  | .group ex d =>
    if m = .bare then layouts .bare i d
    else if ex then layouts .expanded i d
    else layouts .flat i d ++ layouts .expanded i d
  | .ifBreaks d => if m = .expanded then layouts m i d else [[]]
  | .noSoft d => if d.willBreak then [] else (layouts .bare i d).filter (fun x => x.all El.isInline)
  | .alt a b => layouts m i a ++ layouts m i b
  | .cell d => ((layouts .bare 0 d).filter (fun x => !x.any El.isNl)).map inlineSuffixes
  | .verb x => [x]

/-- No padding. -/
def Doc.padless : Doc → Bool
  | .cat a b | .alt a b => a.padless && b.padless
  | .indent d | .group _ d | .ifBreaks d | .noSoft d | .cell d => d.padless
  | .pad => false
  | _ => true

theorem mem_layouts {d : Doc} (h : d.padless = true) : ∀ {m : PMode} {i : Nat} {x : List El},
    x ∈ layouts m i d ↔ Prints m i d x := by
  induction d with
  | cat a b iha ihb =>
    intro m i x
    simp only [Doc.padless, Bool.and_eq_true] at h
    simp only [layouts, Prints, List.mem_flatMap, List.mem_map, iha h.1, ihb h.2]
    exact ⟨fun ⟨y, hy, z, hz, e⟩ => ⟨y, z, e.symm, hy, hz⟩, fun ⟨y, z, e, hy, hz⟩ => ⟨y, hy, z, hz, e.symm⟩⟩
  | indent d ih => intro m i x; exact ih h
  | group ex d ih =>
    intro m i x
    have ih : ∀ {m i x}, x ∈ layouts m i d ↔ Prints m i d x := ih h
    simp only [layouts, Prints]
    split
    · rename_i hm
      subst hm
      rw [ih]
      exact ⟨fun hx => ⟨.bare, ⟨fun _ => rfl, fun h => absurd rfl h, fun h => absurd rfl h⟩, hx⟩,
        fun ⟨m', hm, hx⟩ => by rw [hm.1 rfl] at hx; exact hx⟩
    · rename_i hm
      split
      · rename_i he
        rw [ih]
        exact ⟨fun hx => ⟨.expanded, ⟨fun h => absurd h hm, fun _ => by decide, fun _ _ => rfl⟩, hx⟩,
          fun ⟨m', hm', hx⟩ => by rw [hm'.2.2 hm he] at hx; exact hx⟩
      · rename_i he
        rw [List.mem_append, ih, ih]
        constructor
        · rintro (hx | hx)
          · exact ⟨.flat, ⟨fun h => absurd h hm, fun _ => by decide, fun _ h => absurd h he⟩, hx⟩
          · exact ⟨.expanded, ⟨fun h => absurd h hm, fun _ => by decide, fun _ h => absurd h he⟩, hx⟩
        · rintro ⟨m', hm', hx⟩
          cases m' with
          | flat => exact .inl hx
          | expanded => exact .inr hx
          | bare => exact absurd rfl (hm'.2.1 hm)
  | ifBreaks d ih =>
    intro m i x
    simp only [layouts, Prints]
    split
    · rename_i hm
      rw [ih h]
      simp [hm]
    · rename_i hm
      simp [hm]
  | noSoft d ih =>
    intro m i x
    simp only [layouts, Prints]
    split
    · rename_i hw
      simp [hw]
    · rename_i hw
      rw [List.mem_filter, ih h]
      simp [hw]
  | alt a b iha ihb =>
    intro m i x
    simp only [Doc.padless, Bool.and_eq_true] at h
    simp only [layouts, Prints, List.mem_append, iha h.1, ihb h.2]
  | cell d ih =>
    intro m i x
    simp only [layouts, Prints, List.mem_map, List.mem_filter, ih h]
    exact ⟨fun ⟨y, ⟨hy, hn⟩, e⟩ => ⟨y, hy, by simpa using hn, e.symm⟩,
      fun ⟨y, hy, hn, e⟩ => ⟨y, ⟨hy, by simpa using hn⟩, e.symm⟩⟩
  | pad => cases h
  | _ => intro m i x; simp [layouts, Prints]

/-- Every document of the formatter has a layout. -/
theorem Doc.solid.prints {d : Doc} (h : d.solid = true) : ∀ (m : PMode) (i : Nat), ∃ x, Prints m i d x := by
  induction d with
  | cat a b iha ihb =>
    intro m i
    simp only [Doc.solid, Bool.and_eq_true] at h
    obtain ⟨x, hx⟩ := iha h.1 m i
    obtain ⟨y, hy⟩ := ihb h.2 m i
    exact ⟨_, x, y, rfl, hx, hy⟩
  | indent d ih => intro m i; exact ih h m (i + 1)
  | group ex d ih =>
    intro m i
    by_cases hm : m = .bare
    · obtain ⟨x, hx⟩ := ih h .bare i
      exact ⟨x, .bare, ⟨fun _ => rfl, fun h => absurd hm h, fun h => absurd hm h⟩, hx⟩
    · obtain ⟨x, hx⟩ := ih h .expanded i
      exact ⟨x, .expanded, ⟨fun h => absurd h hm, fun _ => by decide, fun _ _ => rfl⟩, hx⟩
  | ifBreaks d ih =>
    intro m i
    by_cases hm : m = .expanded
    · obtain ⟨x, hx⟩ := ih h m i
      exact ⟨x, .inl ⟨hm, hx⟩⟩
    · exact ⟨[], .inr ⟨hm, rfl⟩⟩
  | noSoft d ih => cases h
  | cell d ih => cases h
  | alt a b iha ihb =>
    intro m i
    obtain ⟨x, hx⟩ := ihb h m i
    exact ⟨x, .inr hx⟩
  | pad => intro m i; exact ⟨_, 0, rfl⟩
  | _ => intro m i; exact ⟨_, rfl⟩

end Verif.Format
