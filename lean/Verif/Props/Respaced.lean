import Verif.Lemmas.Respaced
import Verif.Lemmas.Skim
import Verif.Props.AirFormat

/-!
# C63: blanks and surplus empty lines of the source do not matter
-/

namespace Verif.Whole
open Verif.Syntax Verif.Parser Verif.Format
open Verif.Lsp (toFormatOptions)
open Verif.Settings (Settings)

/-- C63: two files that differ in the white space between tokens and comments only, with line breaks at the
same places, are formatted alike, whatever the printer and the indentation are. Comments are attached to the same
nodes in both. -/
theorem C63_blanks (o : Opts) {x y : Root} (h : Respaced x y) (hs : rootSuppressed o x.attach.es = false)
    (ho : x.attach.es.ordinary o = true) : fmtRoot o x.attach = fmtRoot o y.attach ∧
      ∀ pick unit, formatted o pick unit x = formatted o pick unit y := by
  have ht := thin_attach h
  have hx := attach_thin x
  have hy := attach_thin y
  have hs' : rootSuppressed o y.attach.es = false := by
    rw [← rootSuppressed_map thin_still, ← hy, ← ht, hx, rootSuppressed_map thin_still, hs]
  have ho' : y.attach.es.ordinary o = true := by
    rw [← ordinary_maps thin_still, ← hy, ← ht, hx, ordinary_maps thin_still, ho]
  have key : fmtRoot o x.attach = fmtRoot o y.attach := by
    rw [← fmtRoot_thin o x hs ho, ← fmtRoot_thin o y hs' ho', ht]
  exact ⟨key, fun pick unit => by unfold formatted; rw [key]⟩

theorem no13_out {t : Token} (h : 13 ∉ t.text) : (outTok t).text = t.text := by
  rw [outTok_lf fun _ => h, lf_no13 h]

/-- The parts of a text are those of the tree that the parser builds. -/
theorem Parsed.skim {text : List Byte} {root : TsNode} {p : Exprs} {x : Root} (ha : Agrees text root p)
    (hr : readText (lf text) = some p.bare) (hl : LineEnds text root) (hp : Parsed text root p x) :
    skim (lf text) = some (elMarks (rawFile x.es.tokens x.eof)) := by
  have ht := hp.text_eq ha hl
  obtain ⟨-, -, hsp, -, hf⟩ := parsed_program ha hr hl hp
  obtain ⟨S, hS, -⟩ := Option.bind_eq_some_iff.1 hr
  have hseen := hsp.lexed
  rw [ht, hS] at hseen
  cases hseen
  rw [← ht] at hS ⊢
  refine skim_parted _ [] true _ _ (rawFile_trivial _ _ (hp.trivia ha))
    (ended_raw hp.empty hp.trailing (fun t ht q hq => hp.fine ha hl ht hq) (fun t ht => hp.token ha hl ht) hp.ends)
    (unbroken_raw _ _ (whole_unbroken hp.unbroken) false nofun) Stack.nil (Nat.lt_succ_self _) hS ?_
  rw [printedToks_rawFile]
  exact (fits_toks hf).trans (shapes_toks _ _ _)

/-- C63 for texts: two texts with the same tokens, comments, line breaks and semicolons in the same order, up to
blanks and the number of empty lines where there are two or more, have the same formatted text. Partial: texts
that R and tree-sitter read in the same way, without carriage returns in strings; nothing in them is to be
skipped or formatted as a table. -/
theorem C63_file_partial {out : Outside} {source other : String} {root root' : TsNode} {p p' : Exprs}
    (h : Accepts out source root p) (h' : Accepts out other root' p') (hm : SameMarks (lf (utf8 source)) (lf (utf8 other)))
    (hc : ∀ t ∈ p.tokens, 13 ∉ t.text) (hc' : ∀ t ∈ p'.tokens, 13 ∉ t.text) (s : Settings)
    (he : s.lineEnding.finalize out.windows source.toList = s.lineEnding.finalize out.windows other.toList)
    (hord : ∀ x, seenRoot (utf8 source) root = some x →
      rootSuppressed (settingsOpts out.windows s) x.attach.es = false ∧
      x.attach.es.ordinary (settingsOpts out.windows s) = true) : airFormat out s source = airFormat out s other := by
  obtain ⟨x, hx, hseen⟩ := parsed_seen h.agrees h.reads h.ends
  obtain ⟨y, hy, hseen'⟩ := parsed_seen h'.agrees h'.reads h'.ends
  obtain ⟨-, hb, -⟩ := parsed_program h.agrees h.reads h.ends hx
  obtain ⟨-, hb', -⟩ := parsed_program h'.agrees h'.reads h'.ends hy
  have hp : p.bare = p'.bare := by
    have := h.reads
    rw [hm.reads, h'.reads] at this
    exact (Option.some.inj this).symm
  have hmk := hm
  unfold SameMarks at hmk
  rw [hx.skim h.agrees h.reads h.ends, hy.skim h'.agrees h'.reads h'.ends] at hmk
  have hout : ∀ {z : Root} {q : Exprs}, z.es.tokens.map kt = q.tokens.map kt → (∀ t ∈ q.tokens, 13 ∉ t.text) →
      ∀ t ∈ z.es.tokens, (outTok t).text = t.text := by
    intro z q e hq t ht
    refine no13_out ?_
    have : kt t ∈ q.tokens.map kt := by rw [← e]; exact List.mem_map_of_mem ht
    obtain ⟨u, hu, e⟩ := List.mem_map.1 this
    have e : u.text = t.text := congrArg Prod.snd e
    rw [← e]
    exact hq u hu
  obtain ⟨e1, e2⟩ := same_file (by rw [hx.trailing, hy.trailing]) (by rw [hx.kind, hy.kind])
    (by rw [hx.empty, hy.empty]) x.es.tokens y.es.tokens hx.lines hy.lines hx.own hy.own
    (hout hx.tokens hc) (hout hy.tokens hc')
    (by rw [← noSemi_few, ← noSemi_few]; exact congrArg noSemi (Option.some.inj hmk))
  obtain ⟨c1, c2⟩ := hord x hseen
  have key := (C63_blanks (settingsOpts out.windows s) ⟨by rw [hb, hb', hp], e1, e2⟩ c1 c2).2
  rw [airFormat_eq h.sitter hseen, airFormat_eq h'.sitter hseen', key, he]
  rfl

/-! ## Concrete cases -/

/-- A file with badly spaced code and a comment: `f( x,y ) # c`, three empty lines, `z`. -/
def sloppy : Root :=
  ⟨{}, .cons (.call {} .call (.atom {} .rIdentifier ⟨.ident, [], [102], []⟩) {} ⟨.lParen, [], [40], []⟩
    (.cons (.val {} (.atom {} .rIdentifier ⟨.ident, [⟨.whitespace, [32]⟩], [120], []⟩)) ⟨.comma, [], [44], []⟩
      (.last (.val {} (.atom {} .rIdentifier ⟨.ident, [], [121], []⟩))))
    ⟨.rParen, [⟨.whitespace, [32]⟩], [41], [⟨.whitespace, [32]⟩, ⟨.comment, [35, 99]⟩]⟩)
    (.cons (.atom {} .rIdentifier ⟨.ident, [⟨.newline, [10]⟩, ⟨.newline, [10]⟩, ⟨.newline, [10]⟩, ⟨.newline, [10]⟩],
      [122], []⟩) .nil), ⟨.eof, [⟨.newline, [10]⟩], [], []⟩⟩

/-- The same with other blanks, line ends of Windows and one more empty line. -/
def spacious : Root :=
  ⟨{}, .cons (.call {} .call (.atom {} .rIdentifier ⟨.ident, [], [102], []⟩) {} ⟨.lParen, [⟨.whitespace, [32]⟩], [40], []⟩
    (.cons (.val {} (.atom {} .rIdentifier ⟨.ident, [], [120], []⟩)) ⟨.comma, [], [44], []⟩
      (.last (.val {} (.atom {} .rIdentifier ⟨.ident, [⟨.whitespace, [32, 32]⟩], [121], []⟩))))
    ⟨.rParen, [], [41], [⟨.whitespace, [9]⟩, ⟨.comment, [35, 99]⟩]⟩)
    (.cons (.atom {} .rIdentifier ⟨.ident, [⟨.newline, [13, 10]⟩, ⟨.whitespace, [32]⟩, ⟨.newline, [13, 10]⟩,
      ⟨.newline, [13, 10]⟩, ⟨.newline, [13, 10]⟩, ⟨.newline, [13, 10]⟩, ⟨.whitespace, [32]⟩],
      [122], []⟩) .nil), ⟨.eof, [⟨.newline, [13, 10]⟩], [], []⟩⟩

/-- They meet the hypotheses of `C63_blanks`, with a comment attached. -/
example : Respaced sloppy spacious ∧ rootSuppressed (settingsOpts false Settings.default) sloppy.attach.es = false ∧
    sloppy.attach.es.ordinary (settingsOpts false Settings.default) = true ∧ sloppy.attach.es.comments ≠ [] :=
  ⟨⟨rfl, by decide +kernel, by decide +kernel⟩, by decide +kernel, by decide +kernel, by decide +kernel⟩

/-- A line break more is not white space that does not matter. -/
example : ¬ Respaced (twoRoot ⟨.newline, [10]⟩) (twoRoot ⟨.whitespace, [59]⟩) := fun h => by
  have := h.trivia; revert this; decide

/-- `x #c`, `y` on two lines. -/
def closeText : List Byte := [120, 32, 35, 99, 10, 121, 10]
def closeTree : TsNode :=
  .mk .rRoot .none 0 7 [.mk .rIdentifier .none 0 1 [], .mk .comment .none 2 4 [], .mk .rIdentifier .none 5 6 []]

/-- The same with more blanks. -/
def wideText : List Byte := [120, 32, 32, 35, 99, 10, 32, 121, 10]
def wideTree : TsNode :=
  .mk .rRoot .none 0 9 [.mk .rIdentifier .none 0 1 [], .mk .comment .none 3 5 [], .mk .rIdentifier .none 7 8 []]

def closeOutside (pick : Doc → List El) : Outside :=
  ⟨false, fun t => if t = closeText then (closeTree, false) else (wideTree, false), fun _ _ _ => pick⟩

theorem close_accepts (pick : Doc → List El) : Accepts (closeOutside pick) "x #c\ny\n" closeTree twoProgram := by
  have e : utf8 "x #c\ny\n" = closeText := by decide
  have h13 : 13 ∉ utf8 "x #c\ny\n" := by rw [e]; decide
  refine ⟨by rw [e]; rfl, ?_, ?_, (C57_unix h13).1, fun l hl => .ascii fun b hb => ?_⟩
  · rw [e]
    exact {
      shaped := by simp [ShapedRoot, closeTree, ShapedList, Shaped, classify]
      stop := rfl
      tiled := by simp [closeTree, closeText, leaves, leavesList, classify, Tiled, between, isGapByte, LineEnd]
      written := ⟨rfl, _, _, rfl, ⟨rfl, .inl ⟨.inl rfl, by decide⟩⟩, _, _, rfl, ⟨rfl, .inl ⟨.inl rfl, by decide⟩⟩, rfl⟩
      comments := by decide
      strings := by simp [Joined, closeTree, leaves, leavesList, classify] }
  · rw [lf_no13 h13, e]; rfl
  · have hb : b ∈ utf8 "x #c\ny\n" := List.mem_of_mem_drop (List.mem_of_mem_take hb)
    have hall : ∀ b ∈ utf8 "x #c\ny\n", b.toNat < 128 := by rw [e]; decide
    exact hall b hb

theorem wide_accepts (pick : Doc → List El) : Accepts (closeOutside pick) "x  #c\n y\n" wideTree twoProgram := by
  have e : utf8 "x  #c\n y\n" = wideText := by decide
  have h13 : 13 ∉ utf8 "x  #c\n y\n" := by rw [e]; decide
  refine ⟨by rw [e]; rfl, ?_, ?_, (C57_unix h13).1, fun l hl => .ascii fun b hb => ?_⟩
  · rw [e]
    exact {
      shaped := by simp [ShapedRoot, wideTree, ShapedList, Shaped, classify]
      stop := rfl
      tiled := by simp [wideTree, wideText, leaves, leavesList, classify, Tiled, between, isGapByte, LineEnd]
      written := ⟨rfl, _, _, rfl, ⟨rfl, .inl ⟨.inl rfl, by decide⟩⟩, _, _, rfl, ⟨rfl, .inl ⟨.inl rfl, by decide⟩⟩, rfl⟩
      comments := by decide
      strings := by simp [Joined, wideTree, leaves, leavesList, classify] }
  · rw [lf_no13 h13, e]; rfl
  · have hb : b ∈ utf8 "x  #c\n y\n" := List.mem_of_mem_drop (List.mem_of_mem_take hb)
    have hall : ∀ b ∈ utf8 "x  #c\n y\n", b.toNat < 128 := by rw [e]; decide
    exact hall b hb

/-- They meet the hypotheses of `C63_file_partial`. -/
example (pick : Doc → List El) : airFormat (closeOutside pick) Settings.default "x #c\ny\n" =
    airFormat (closeOutside pick) Settings.default "x  #c\n y\n" := by
  have e : utf8 "x #c\ny\n" = closeText := by decide
  have e' : utf8 "x  #c\n y\n" = wideText := by decide
  refine C63_file_partial (close_accepts pick) (wide_accepts pick) ?_ (by decide) (by decide) _
    (by decide +kernel : Settings.default.lineEnding.finalize false "x #c\ny\n".toList =
      Settings.default.lineEnding.finalize false "x  #c\n y\n".toList) ?_
  · rw [e, e', lf_no13 (by decide), lf_no13 (by decide)]
    have h1 : skim closeText = some [.tok ⟨.ident, [120]⟩, .comment [35, 99], .brk, .tok ⟨.ident, [121]⟩, .brk] := by
      decide +kernel
    have h2 : skim wideText = some [.tok ⟨.ident, [120]⟩, .comment [35, 99], .brk, .tok ⟨.ident, [121]⟩, .brk] := by
      decide +kernel
    unfold SameMarks
    rw [h1, h2]
  · intro x hx
    rw [e] at hx
    have h : seenRoot closeText closeTree = some ⟨{}, .cons (.atom {} .rIdentifier
        ⟨.ident, [], [120], [⟨.whitespace, [32]⟩, ⟨.comment, [35, 99]⟩]⟩)
        (.cons (.atom {} .rIdentifier ⟨.ident, [⟨.newline, [10]⟩], [121], []⟩) .nil),
        ⟨.eof, [⟨.newline, [10]⟩], [], []⟩⟩ := by
      have h1 : parse closeText closeTree false = some (fileTree ⟨{}, .cons (.atom {} .rIdentifier
          ⟨.ident, [], [120], [⟨.whitespace, [32]⟩, ⟨.comment, [35, 99]⟩]⟩)
          (.cons (.atom {} .rIdentifier ⟨.ident, [⟨.newline, [10]⟩], [121], []⟩) .nil),
          ⟨.eof, [⟨.newline, [10]⟩], [], []⟩⟩, false) := by rfl
      unfold seenRoot
      rw [h1]
      rfl
    rw [h] at hx
    cases hx
    have hw : (closeOutside pick).windows = false := rfl
    rw [hw]
    exact ⟨by decide +kernel, by decide +kernel⟩

end Verif.Whole
