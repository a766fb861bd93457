import Verif.Props.Source
import Verif.Lemmas.LexSource
import Verif.Lemmas.LexTrack

/-!
# C54: R's lexer finds the printed tokens in the formatted text
-/

namespace Verif.Format
open Verif.Syntax Ex

theorem annOk_comments {a : Ann} (h : ∀ t ∈ texts a.all, CommentText t) : ∀ c ∈ a.all, CommentText c.text :=
  fun c hc => h _ (List.mem_map.2 ⟨c, hc, rfl⟩)

/-- The comments of a file are comments. -/
theorem spelled_comments {x : Root} (h : x.Spelled) : ∀ t ∈ x.sourceComments, CommentText t := by
  intro t ht
  obtain ⟨p, hp, rfl⟩ := List.mem_map.1 ht
  obtain ⟨hp, hk⟩ := List.mem_filter.1 hp
  have := (spelled_trivial (h.trivia p hp)).1
  rw [show pieceEl p = .comment p.text by simp [pieceEl, beq_iff_eq.1 hk]] at this
  exact this

/-- The printed tokens stay apart and are in order. -/
theorem lexed_parts {o : Opts} {x : Root} {m : Mode} {els out : List El} (hx : x.Spelled)
    (hg : x.es.gram = true)
    (hsrc : Fits (shapes .top .free x.es) (seen .fresh (rawFile x.es.tokens x.eof)))
    (hc : ∀ d ∈ x.view.decos [] true, d.risky x.view = false) (hst : SteadyL o x.attach.es)
    (h : Lays false m 0 (fmtRoot o x.attach) els) (hr : Respelled (emit els) out) :
    (Glued none out ∧ NoStr (glueEnd none out)) ∧ (∀ e ∈ out, Trivial e) ∧ Tracks [] (printedToks out) ∧
      (seen .fresh out).map Prod.snd = printedToks out := by
  have htoks : x.attach.es.tokens = x.es.tokens := annotates_tokens _ _ _ _
  have hseen : (seen .fresh (rawFile x.es.tokens x.eof)).map Prod.snd = x.es.tokens.map outTok :=
    (fits_toks hsrc).trans (shapes_toks _ _ _)
  obtain ⟨hlx, hlk⟩ := spelled_tokens hx hseen
  have hcom := C37_attached_once x
  have hall := spelled_comments hx
  have hann : ∀ c ∈ x.attach.ann.all, CommentText c.text := annOk_comments fun t ht =>
    hall t (hcom.mem_iff.1 (List.mem_append_left _ ht))
  have hes : ∀ c ∈ x.attach.es.comments, CommentText c.text := fun c hc =>
    hall _ (hcom.mem_iff.1 (List.mem_append_right _ (List.mem_map.2 ⟨c, hc, rfl⟩)))
  have hg' : x.attach.es.gram = true := (grams_annotate _ _ _ _).trans hg
  have hlex : x.attach.es.lexical := gram_lexicals _ hg' (by rw [htoks]; exact hlx) hes
  obtain ⟨es', hes', hfit⟩ := C38_source_partial o x m els hg hsrc hc hst h
  have hno := C37_source_no_token_in_comment_partial o x m els hg hsrc hc hst h
  have hlex' : es'.lexical := by
    rcases hes' with hb | ⟨-, rfl⟩
    · exact becomess_lexical o _ _ _ hb hlex
    · exact hlex
  have htr : Tracks [] (printedToks (emit els)) := by
    rw [← hno, fits_toks hfit, shapes_toks]
    exact (sounds es' hlex' [] rfl).1
  have key : (Glued none (emit els) ∧ NoStr (glueEnd none (emit els))) ∧ ∀ e ∈ emit els, Trivial e := by
    cases hs : rootSuppressed o x.attach.es with
    | false =>
      have := flow_root (o := o) (x := x.attach) hann hlex (by rw [htoks]; exact hlk) hs _ _ _ _ h none Before.none
      exact ⟨glued_emit this.1 this.2.1.noStr, trivial_emit this.2.2⟩
    | true =>
      unfold fmtRoot at h
      rw [if_pos hs] at h
      have h : els = rawFile x.attach.es.tokens x.attach.eof := h
      rw [htoks] at h
      have hpl := rawFile_isPlain x.es.tokens x.attach.eof
      rw [h, emit_plain hpl]
      obtain ⟨hpa, hu⟩ := spelled_parted hx hseen
      exact ⟨glued_parted _ [] none hpl hpa (fun t ht => by cases ht) hu, rawFile_trivial _ _ hx.trivia⟩
  refine ⟨⟨(respelled_glued hr _).1 key.1.1, ?_⟩, respelled_trivial hr key.2, ?_, ?_⟩
  · rw [← (respelled_glued hr _).2]; exact key.1.2
  · rw [← respelled_toks hr]; exact htr
  · rw [← respelled_seen hr, ← respelled_toks hr]; exact hno

/-- C54: if the tokens and trivia of a file are what R finds in its text, then the tokens that air prints
are what R finds in the formatted text, whatever is chosen for indentation. Conditions as for C38. -/
theorem C54_lexed_partial (o : Opts) (x : Root) (m : Mode) (els out : List El) (hx : x.Spelled)
    (hg : x.es.gram = true)
    (hsrc : Fits (shapes .top .free x.es) (seen .fresh (rawFile x.es.tokens x.eof)))
    (hc : ∀ d ∈ x.view.decos [] true, d.risky x.view = false) (hst : SteadyL o x.attach.es)
    (h : Lays false m 0 (fmtRoot o x.attach) els) (hr : Respelled (emit els) out) :
    lexText (render out) = some (seen .fresh (emit els)) := by
  obtain ⟨⟨h1, h2⟩, h3, h4, h5⟩ := lexed_parts hx hg hsrc hc hst h hr
  rw [respelled_seen hr]
  exact lexText_glued h1 h2 h3 h4 h5

/-- C54 and C39: R reads the text of the source as the tree, and reads the formatted text, with any
indentation, as a program that differs by the exchange of `=` and `<-` and by braces around bodies only. -/
theorem C54_reads_text_partial (o : Opts) (x : Root) (m : Mode) (els out : List El) (hx : x.Spelled)
    (hg : x.es.gram = true)
    (hsrc : Fits (shapes .top .free x.es) (seen .fresh (rawFile x.es.tokens x.eof)))
    (hc : ∀ d ∈ x.view.decos [] true, d.risky x.view = false) (hst : SteadyL o x.attach.es)
    (hcl : x.attach.es.clear o = true)
    (h : Lays false m 0 (fmtRoot o x.attach) els) (hr : Respelled (emit els) out) :
    readText x.text = some x.es.bare ∧
    ∃ es', (Becomess o true x.attach.es es' ∨ rootSuppressed o x.attach.es = true ∧ es' = x.attach.es) ∧
      readText (render out) = some es'.bare := by
  obtain ⟨h1, es', h2, h3⟩ := C39_source_partial o x m els hg hsrc hc hst hcl h
  refine ⟨?_, es', h2, ?_⟩
  · unfold readText
    rw [hx.lexed]
    exact h1
  · unfold readText
    rw [C54_lexed_partial o x m els out hx hg hsrc hc hst h hr]
    exact h3

/-! ## Examples -/

example : manyComments.Spelled :=
  ⟨by decide +kernel, by decide +kernel, by decide +kernel⟩
example : someKept.Spelled :=
  ⟨by decide +kernel, by decide +kernel, by decide +kernel⟩

/-- `x[[ 'a' ]]`, `-1e-5L`: quotes, brackets and numbers. -/
def quoted : Root := file
  [.call {} .subset2 (id (tk .ident "x")) {} (tk .lBrack2 "[[")
     (.last (val (.str {} (ts .stringOpen "'") (some (tk .stringContent "a")) (tk .stringClose "'"))))
     (ts .rBrack2 "]]"),
   .unary {} (tn .minus "-") (.atom {} .rIntegerValue (tk .rIntegerLiteral "1e-5L"))]

example : quoted.Spelled := ⟨by decide +kernel, by decide +kernel, by decide +kernel⟩
example : quoted.es.gram = true ∧
    Fits (shapes .top .free quoted.es) (seen .fresh (rawFile quoted.es.tokens quoted.eof)) ∧
    (∀ d ∈ quoted.view.decos [] true, d.risky quoted.view = false) ∧
    quoted.attach.es.clear (opts .arrow []) = true := by decide +kernel
example : SteadyL (opts .arrow []) quoted.attach.es := ordinary_steadyL _ (by decide +kernel)

/-- Spaces matter: without them R finds other tokens. -/
example : lexText (tx "a<-1") ≠ lexText (tx "a< -1") ∧ lexText (tx "ina") ≠ lexText (tx "in a") ∧
    lexText (tx "x[y[1]]") ≠ lexText (tx "x[y[1]") ∧ lexText (tx "'a") = none := by decide +kernel

/-- Two spaces or a tab: the same elements. -/
example : Respelled [.rnl, .blank [9], .tok ⟨.ident, tx "a"⟩] [.rnl, .blank [32, 32], .tok ⟨.ident, tx "a"⟩] :=
  .same _ (.blank (by decide) (by decide) (by decide) (by decide) (.same _ .nil))

end Verif.Format
