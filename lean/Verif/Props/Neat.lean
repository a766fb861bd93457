import Verif.Props.Comments
import Verif.Props.Lines
import Verif.Lemmas.FormatNeat
import Verif.Lemmas.PlacementRoot
import Verif.Lemmas.Ordinary

/-!
# C55: white space of the formatted file
-/

namespace Verif.Format
open Verif.Syntax Ex

/-- C55 for files with statements in which nothing is skipped or printed as a table: in every layout,
no line of the formatted file ends with white space, blank lines are empty, between two pieces of text on
a line there is at most one space, lines are indented with indentation only, there are never more than
two blank lines in a row (and only one before an indented line), the file does not start with white
space, and it ends with exactly one line feed. Multi-line strings count as one piece of text. Missing:
skipped code and tables. -/
theorem C55_neat_partial (o : Opts) (x : Root) (m : Mode) (els : List El) (hne : x.es ≠ .nil)
    (hs : rootSuppressed o x.attach.es = false) (ho : x.attach.es.ordinary o = true)
    (h : Lays false m 0 (fmtRoot o x.attach) els) : NeatFile (emit els) :=
  neat_root hs ho (attach_ann x hne) h

/-- The same with conditions on the text of the file only. -/
theorem C55_plain_partial (o : Opts) (x : Root) (m : Mode) (els : List El) (hne : x.es ≠ .nil)
    (hd : ∀ t ∈ x.sourceComments, o.directive t = none ∧ o.generated t = false)
    (hu : Unlisted o x.es.tokens) (h : Lays false m 0 (fmtRoot o x.attach) els) : NeatFile (emit els) :=
  C55_neat_partial o x m els hne (rootSuppressed_attach x hd)
    (ordinary_attach x (fun t ht => (hd t ht).1) hu) h

/-- A file without statements and comments becomes empty. -/
theorem C55_empty (o : Opts) (x : Root) (m : Mode) (els : List El) (he : x.es = .nil)
    (hc : x.sourceComments = []) (h : Lays false m 0 (fmtRoot o x.attach) els) : emit els = [] := by
  have h1 : x.placed = [] := by
    have := root_decos x
    rw [hc] at this
    unfold Root.placed
    rw [List.map_eq_nil_iff.1 this]
    rfl
  have h2 : x.attach = ⟨{}, .nil, x.eof⟩ := by
    unfold Root.attach
    rw [h1, he]
    rfl
  rw [h2] at h
  obtain ⟨p, y, rfl, hp, z, w, rfl, ⟨b, u, rfl, hb, (rfl : u = _)⟩, v, q, rfl, hv, hq⟩ := h
  cases hp
  cases hv
  cases hq
  rw [fmtExprs] at hb
  cases hb
  rfl

/-- Disagreement: in a file with comments but without statements the comments are attached to the file
itself, as dangling comments, for which there is no rule; by default they are indented, like comments
between parentheses. So the formatted file starts with white space, in every layout. -/
theorem C55_comments_only_indented (o : Opts) (x : Root) (m : Mode) (els : List El) (he : x.es = .nil)
    (hc : x.sourceComments ≠ []) (h : Lays false m 0 (fmtRoot o x.attach) els) :
    (∃ c r, emit els = .blank [9] :: .comment c :: r) ∧ ¬ NeatFile (emit els) := by
  have key : ∃ c r, emit els = .blank [9] :: .comment c :: r := by
    obtain ⟨c, cs, hd⟩ : ∃ c cs, x.attach.ann = ⟨[], c :: cs, []⟩ := attach_dangling x he hc
    have h2 : x.attach = ⟨⟨[], c :: cs, []⟩, .nil, x.eof⟩ := by
      have : x.attach.es = .nil := by unfold Root.attach; rw [he]; rfl
      rw [← hd, ← this]
      rfl
    rw [h2] at h
    obtain ⟨p, y, rfl, hp, z, w, rfl, ⟨b, u, rfl, hb, (rfl : u = _)⟩, v, q, rfl, hv, hq⟩ := h
    cases hp
    cases hq
    rw [fmtExprs] at hb
    cases hb
    obtain ⟨m', hm, hv⟩ := hv
    cases hm rfl rfl
    obtain ⟨v1, v2, rfl, ⟨v3, v4, rfl, (rfl : v3 = _), hv4⟩, hv2⟩ := hv
    have h4 : ∃ r, v4 = .comment c.text :: r := by
      cases cs with
      | nil => cases hv4; exact ⟨[], rfl⟩
      | cons d cs =>
        obtain ⟨v5, v6, rfl, (rfl : v5 = _), -⟩ := hv4
        exact ⟨v6, rfl⟩
    obtain ⟨r, rfl⟩ := h4
    exact ⟨c.text, _, rfl⟩
  refine ⟨key, ?_⟩
  obtain ⟨c, r, hr⟩ := key
  rw [hr]
  rintro (h | h)
  · cases h
  · cases h

/-! ## Examples -/

example : NeatFile (emit (lay true true false .expanded 0 (fmtRoot (opts .arrow []) manyComments.attach))) ∧
    NeatFile (emit (lay false true false .expanded 0 (fmtRoot (opts .arrow []) linesProg.attach))) := by
  decide +kernel
example : manyComments.es ≠ .nil ∧ rootSuppressed (opts .arrow []) manyComments.attach.es = false ∧
    manyComments.attach.es.ordinary (opts .arrow []) = true := by
  exact ⟨(fun h => by cases h), by decide +kernel, by decide +kernel⟩
example : (∀ t ∈ manyComments.sourceComments, (opts .arrow []).directive t = none ∧
    (opts .arrow []).generated t = false) ∧ Unlisted (opts .arrow []) manyComments.es.tokens := by
  refine ⟨by decide +kernel, ?_⟩
  intro t ht
  revert t
  decide +kernel

/-- Two comments and nothing else. -/
def onlyComments : Root := ⟨{}, .nil,
  ⟨.eof, [⟨.comment, tx "# a"⟩, ⟨.newline, [10]⟩, ⟨.comment, tx "# b"⟩, ⟨.newline, [10]⟩], [], []⟩⟩

example : onlyComments.sourceComments = [tx "# a", tx "# b"] := by decide +kernel
example : text (opts .arrow []) onlyComments.attach true true = tx "\t# a\n\t# b\n" := by decide +kernel
example : text (opts .arrow []) (file []).attach true true = [] := by decide +kernel

end Verif.Format
