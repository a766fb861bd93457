import Verif.Props.Comments
import Verif.Props.Assignment
import Verif.Lemmas.FormatSource
import Verif.Lemmas.Ordinary
import Verif.Lemmas.GramAnnotate

/-!
# C37, C38, C39 with conditions on the source only

The conditions of C38 (`Tames`) follow from what the source looks like: which comments stand at risky
places, and what nodes that are kept as written or printed as tables look like.
-/

namespace Verif.Format
open Verif.Syntax Ex

/-- C38: if R reads the source as the tree, and comments and nodes that are kept as written are at none of
the places where formatting changes the program (`risky`, `SteadyL`), then R reads the formatted text as
a program that differs by braces around bodies and by assignment operators only. Comments are attached
by the rules of `place_comment`. -/
theorem C38_source_partial (o : Opts) (x : Root) (m : Mode) (els : List El) (hg : x.es.gram = true)
    (hsrc : Fits (shapes .top .free x.es) (seen .fresh (rawFile x.es.tokens x.eof)))
    (hc : ∀ d ∈ x.view.decos [] true, d.risky x.view = false) (hst : SteadyL o x.attach.es)
    (h : Lays false m 0 (fmtRoot o x.attach) els) :
    ∃ es', (Becomess o true x.attach.es es' ∨ rootSuppressed o x.attach.es = true ∧ es' = x.attach.es) ∧
      Fits (shapes .top .free es') (seen .fresh (emit els)) := by
  cases hs : rootSuppressed o x.attach.es with
  | false =>
    obtain ⟨es', h1, h2⟩ := C38_reads_partial o x.attach m els hs (tames_attach x hg hsrc hc hst) h
    exact ⟨es', .inl h1, h2⟩
  | true =>
    refine ⟨_, .inr ⟨rfl, rfl⟩, ?_⟩
    unfold fmtRoot at h
    rw [if_pos hs] at h
    have h : els = rawFile x.attach.es.tokens x.attach.eof := h
    have h1 : x.attach.es.tokens = x.es.tokens := annotates_tokens _ _ _ _
    have h2 : shapes .top .free x.attach.es = shapes .top .free x.es := shapes_annotate _ _ _ _ _ _
    rw [seen_emit, h, h1, h2]
    exact hsrc

/-- C37 under the same conditions: no token of the formatted text ends up in a comment. -/
theorem C37_source_no_token_in_comment_partial (o : Opts) (x : Root) (m : Mode) (els : List El)
    (hg : x.es.gram = true)
    (hsrc : Fits (shapes .top .free x.es) (seen .fresh (rawFile x.es.tokens x.eof)))
    (hc : ∀ d ∈ x.view.decos [] true, d.risky x.view = false) (hst : SteadyL o x.attach.es)
    (h : Lays false m 0 (fmtRoot o x.attach) els) :
    (seen .fresh (emit els)).map Prod.snd = printedToks (emit els) := by
  cases hs : rootSuppressed o x.attach.es with
  | false =>
    exact C37_no_token_in_comment_partial o x.attach m els hs (tames_attach x hg hsrc hc hst) h
  | true =>
    unfold fmtRoot at h
    rw [if_pos hs] at h
    have h : els = rawFile x.attach.es.tokens x.attach.eof := h
    have h1 : x.attach.es.tokens = x.es.tokens := annotates_tokens _ _ _ _
    rw [seen_emit, printedToks_emit, h, h1]
    exact (fits_toks hsrc).trans ((shapes_toks _ _ _).trans (printedToks_rawFile _ _).symm)

/-- C39 under the same conditions: R reads the formatted text as the program of the source, apart from
the exchange of `=` and `<-` and from braces around bodies. -/
theorem C39_source_partial (o : Opts) (x : Root) (m : Mode) (els : List El) (hg : x.es.gram = true)
    (hsrc : Fits (shapes .top .free x.es) (seen .fresh (rawFile x.es.tokens x.eof)))
    (hc : ∀ d ∈ x.view.decos [] true, d.risky x.view = false) (hst : SteadyL o x.attach.es)
    (hcl : x.attach.es.clear o = true) (h : Lays false m 0 (fmtRoot o x.attach) els) :
    readFile (seen .fresh (rawFile x.es.tokens x.eof)) = some x.es.bare ∧
    ∃ es', (Becomess o true x.attach.es es' ∨ rootSuppressed o x.attach.es = true ∧ es' = x.attach.es) ∧
      readFile (seen .fresh (emit els)) = some es'.bare := by
  refine ⟨readFile_gram hg hsrc, ?_⟩
  obtain ⟨es', h1, h2⟩ := C38_source_partial o x m els hg hsrc hc hst h
  have hg' : x.attach.es.gram = true := (grams_annotate _ _ _ _).trans hg
  refine ⟨es', h1, readFile_gram ?_ h2⟩
  rcases h1 with h1 | ⟨-, rfl⟩
  · exact C39_grammar o _ es' hg' hcl h1
  · exact hg'

/-- C38 for files without `fmt` directives and without names listed in the settings: how the source is
laid out does not matter, only where comments stand. -/
theorem C38_plain_partial (o : Opts) (x : Root) (m : Mode) (els : List El) (hg : x.es.gram = true)
    (hd : ∀ t ∈ x.sourceComments, o.directive t = none ∧ o.generated t = false)
    (hn : ∀ t ∈ x.es.tokens, o.skip t.text = false ∧ o.table t.text = false)
    (hc : ∀ d ∈ x.view.decos [] true, d.risky x.view = false)
    (h : Lays false m 0 (fmtRoot o x.attach) els) :
    ∃ es', Becomess o true x.attach.es es' ∧ Fits (shapes .top .free es') (seen .fresh (emit els)) :=
  C38_reads_calm_partial o x.attach m els
    (rootSuppressed_attach x hd) (calm_attach x hg hc) (ordinary_attach x (fun t ht => (hd t ht).1) hn) h

/-! ## Examples -/

example : manyComments.es.gram = true := by decide +kernel
example : Fits (shapes .top .free manyComments.es)
    (seen .fresh (rawFile manyComments.es.tokens manyComments.eof)) := by decide +kernel
example : ∀ d ∈ manyComments.view.decos [] true, d.risky manyComments.view = false := by decide +kernel
example : ∀ t ∈ manyComments.sourceComments,
    (opts .arrow []).directive t = none ∧ (opts .arrow []).generated t = false := by decide +kernel
example : ∀ t ∈ manyComments.es.tokens,
    (opts .arrow []).skip t.text = false ∧ (opts .arrow []).table t.text = false := by decide +kernel
example : SteadyL (opts .arrow []) manyComments.attach.es :=
  ordinary_steadyL _ (by decide +kernel)
example : manyComments.attach.es.clear (opts .arrow []) = true := by decide +kernel

/-- The second call is kept because the settings list `f`. -/
example : someKept.es.gram = true ∧
    Fits (shapes .top .free someKept.es) (seen .fresh (rawFile someKept.es.tokens someKept.eof)) ∧
    (∀ d ∈ someKept.view.decos [] true, d.risky someKept.view = false) ∧
    someKept.attach.es.clear (opts .arrow [tx "f"]) = true := by decide +kernel
example : SteadyL (opts .arrow [tx "f"]) someKept.attach.es := by
  have key : ∀ (e : Expr) (P : Prop), keptAt (opts .arrow [tx "f"]) true false e = true →
      KeptIn (opts .arrow [tx "f"]) false true false e P := by
    intro e P h
    unfold KeptIn
    rw [if_pos h]
    intro h
    cases h
  exact ⟨key _ _ (by decide +kernel), key _ _ (by decide +kernel), trivial⟩

end Verif.Format
