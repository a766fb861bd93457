import Verif.Props.Format
import Verif.Lemmas.FormatRaw
import Verif.Lemmas.FormatStill

/-!
# C31: requests to leave something as it is
-/

namespace Verif.Format
open Verif.Syntax Ex

/-- A file is to be left as it is: a `# fmt: skip file` comment leads its first expression, or a
comment starting with `Generated by` is the first of those. -/
def SkipFile (o : Opts) (x : Root) : Prop :=
  ∃ e es c cs, x.es = .cons e es ∧ e.ann.leading = c :: cs ∧
    (o.generated c.text = true ∨ ∃ d ∈ c :: cs, o.directive d.text = some .skipFile)

theorem rootSuppressed_iff (o : Opts) (x : Root) : rootSuppressed o x.es = true ↔ SkipFile o x := by
  unfold SkipFile
  cases x.es with
  | nil =>
    constructor
    · intro h; cases h
    · rintro ⟨e, es, c, cs, h, -⟩; cases h
  | cons e es =>
    unfold rootSuppressed
    dsimp only
    cases h : e.ann.leading with
    | nil =>
      constructor
      · intro h; cases h
      · rintro ⟨e', es', c, cs, h1, h2, -⟩
        cases h1
        rw [h] at h2
        cases h2
    | cons c cs =>
      simp only [Bool.or_eq_true, List.any_eq_true, beq_iff_eq]
      constructor
      · intro h3
        exact ⟨e, es, c, cs, rfl, h, h3⟩
      · rintro ⟨e', es', c', cs', h1, h2, h3⟩
        cases h1
        rw [h] at h2
        cases h2
        exact h3

/-- C31: every node that is to be left as it is appears in the output as it was written, for every
layout. -/
theorem C31_skip (o : Opts) (x : Root) (hx : LineFeeds x.es.tokens) (m : Mode) (els : List El)
    (h : Lays false m 0 (fmtRoot o x) els) (ts : List Token) (hs : ts ∈ x.es.skips o false) :
    nodeText ts <:+: render (emit els) := by
  obtain ⟨hp, hn⟩ := skipss_part o false x.es hs
  have hlf : LineFeeds ts := hx.sub (fun t ht => hp.subset ht)
  rw [← render_rawEls ts hlf]
  apply render_infix
  apply emit_infix (rawEls_isPlain ts)
  unfold fmtRoot at h
  split at h
  · have : els = rawFile x.es.tokens x.eof := h
    rw [this]
    have hne : x.es.tokens ≠ [] := by
      intro h0
      rw [h0] at hp
      exact hn (List.infix_nil.mp hp)
    obtain ⟨a, b, hab⟩ := rawFile_eq x.eof hne
    rw [hab]
    exact infix_left _ (infix_right _ (rawEls_infix hp hn))
  · exact (((has_fmtExprs o x.es {} true true hs).left _).node _ _) _ _ _ _ h

/-- C31: a file that is to be left as it is comes out byte for byte. -/
theorem C31_skip_file (o : Opts) (x : Root) (hs : SkipFile o x)
    (hx : LineFeeds (x.es.tokens ++ [x.eof])) (m : Mode) (els : List El)
    (h : Lays false m 0 (fmtRoot o x) els) : render (emit els) = fileText x.es.tokens x.eof := by
  unfold fmtRoot at h
  rw [if_pos ((rootSuppressed_iff o x).mpr hs)] at h
  have h : els = rawFile x.es.tokens x.eof := h
  rw [h, emit_plain (rawFile_isPlain _ _), render_rawFile _ _ hx]

/-- C31, the converse: where nothing asks for it, nothing is left as it was written; the output is
the same whatever blanks the source has between its tokens. -/
theorem C31_only (o : Opts) (x : Root) (hs : ¬ SkipFile o x) (ho : x.es.ordinary o = true) (m : Mode)
    (els : List El) :
    Lays false m 0 (fmtRoot o x) els ↔
      Lays false m 0 (fmtRoot o { x with es := x.es.map Token.unblank (fun c => c) }) els := by
  have h1 : rootSuppressed o x.es = false := by
    cases h : rootSuppressed o x.es with
    | false => rfl
    | true => exact absurd ((rootSuppressed_iff o x).mp h) hs
  unfold fmtRoot
  rw [rootSuppressed_map unblank_still, h1, fmt_maps unblank_still _ _ _ _ ho]
  rfl

/-! ## Examples -/

namespace Ex

/-- `# fmt: skip` before an expression. -/
def skipCm : Comment := ⟨tx "# fmt: skip", 0, 1, false⟩

/-- A line break after a comment. -/
def skipLine : List Piece := [⟨.comment, tx "# fmt: skip"⟩, ⟨.newline, [10]⟩]

/-- `a  +b` after `# fmt: skip`, and `f( x )`, `g( x )` on the next lines. -/
def skipProg : Root := file
  [.binary { leading := [skipCm] } (id ⟨.ident, skipLine, tx "a", []⟩)
     ⟨.plus, [⟨.whitespace, [32, 32]⟩], tx "+", []⟩ (id (tk .ident "b")),
   .call {} .call (id (tn .ident "f")) {} (tk .lParen "(")
     (.last (.val {} (id (ts .ident "x")))) (ts .rParen ")"),
   .call {} .call (id (tn .ident "g")) {} (tk .lParen "(")
     (.last (.val {} (id (ts .ident "x")))) (ts .rParen ")")]

example : (skipProg.es.skips (opts .arrow [tx "f"]) false).map nodeText =
    [tx "a  +b", tx "f( x )"] := by decide +kernel
example : text (opts .arrow [tx "f"]) skipProg true true =
    tx "# fmt: skip\na  +b\nf( x )\ng(x)\n" := by decide +kernel
example : SkipFile (opts .arrow [])
    (file [.atom { leading := [⟨tx "# Generated by cpp11: do not edit by hand", 0, 1, false⟩] }
      .rIdentifier (tk .ident "a")]) :=
  ⟨_, _, _, _, rfl, rfl, .inl (by decide +kernel)⟩
example : prog.es.ordinary (opts .arrow [tx "f"]) = true ∧ prog.es.tokens.map Token.unblank ≠
    prog.es.tokens := by decide

end Ex

end Verif.Format
