import Verif.Lemmas.NotedRead
import Verif.Props.Stable

/-!
# C56 for files with comments in front of statements
-/

namespace Verif.Format
open Verif.Syntax Ex

/-- C56, for files whose comments all lead statements, in the file or in braces: let `els` be a layout of the
formatted file, and `y` what is read in its text. Then `els` is a layout of `y` as well, and `y` has no layouts
that the source does not have. The settings ask for persistent line breaks, and list no function that is called; no
comment asks for skipping or a table. -/
theorem C56_noted_partial (o : Opts) (x y : Root) (els : List El) (hper : o.persistent = true)
    (ha : x.attach.ann = {}) (hn : x.attach.es.noted = true) (hg : x.es.gram = true)
    (ho : x.attach.es.ordinary o = true) (hcl : x.attach.es.clear o = true)
    (hd : ∀ c ∈ x.sourceComments, o.directive c = none ∧ o.generated c = false)
    (h : Prints .expanded 0 (fmtRoot o x.attach) els) (hy : RereadsNoted (emit els) y) :
    Prints .expanded 0 (fmtRoot o y.attach) els ∧
    ∀ els', Prints .expanded 0 (fmtRoot o y.attach) els' → Prints .expanded 0 (fmtRoot o x.attach) els' := by
  obtain ⟨N, hN, hs⟩ := short_bound x.attach.es.tokens
  have hg' : x.attach.es.gram = true := (grams_annotate _ _ _ _).trans hg
  refine again_noted hper ha hN (noted_ofs _ hn ho (bare_calms hg') hs fun c hc => hd _ ?_) hg' hcl h hy
  exact (attach_comments x).mem_iff.1 (List.mem_append_right _ (List.mem_map_of_mem hc))

/-- C56, for the same files: a printer whose choice does not depend on the layouts that it does not choose prints
what is read in a formatted file as it is. -/
theorem C56_noted_idempotent_partial (o : Opts) (x y : Root) (pick : Doc → List El) (hp : Chooses pick)
    (hk : Consistent pick) (hper : o.persistent = true) (ha : x.attach.ann = {}) (hn : x.attach.es.noted = true)
    (hg : x.es.gram = true) (ho : x.attach.es.ordinary o = true) (hcl : x.attach.es.clear o = true)
    (hd : ∀ c ∈ x.sourceComments, o.directive c = none ∧ o.generated c = false)
    (hy : RereadsNoted (emit (pick (fmtRoot o x.attach))) y) :
    render (emit (pick (fmtRoot o y.attach))) = render (emit (pick (fmtRoot o x.attach))) := by
  have h := hp _ (Doc.solid.prints (fmtRoot_solid o x.attach) .expanded 0)
  have h1 := C56_noted_partial o x y _ hper ha hn hg ho hcl hd h hy
  rw [hk _ _ h1.2 h1.1]

end Verif.Format

namespace Verif.Whole
open Verif.Syntax Verif.Parser Verif.Format
open Verif.Lsp (toFormatOptions)
open Verif.Settings (Settings)

/-- The comments of a file all lead statements, in the file or in braces; none asks for anything, and none
stands at a place where its line break may end an expression early. The settings list no function that is called. -/
structure Quiet (o : Opts) (x : Root) : Prop where
  ann : x.attach.ann = {}
  noted : x.attach.es.noted = true
  ordinary : x.attach.es.ordinary o = true
  clear : x.attach.es.clear o = true
  idle : ∀ c ∈ x.sourceComments, o.directive c = none ∧ o.generated c = false
  places : ∀ d ∈ x.view.decos [] true, d.risky x.view = false

/-- C57 with C56: a text whose comments all lead statements is formatted to a text that R reads, and if this text
is parsed and formatted again nothing changes. Partial: such comments, persistent line breaks, no carriage returns
within strings, and printers with consistent choices. -/
theorem C57_noted_partial (o : Opts) (pick : Doc → List El) (hp : Chooses pick) (hk : Consistent pick)
    (hper : o.persistent = true) (unit : List Byte) (hu : unit ≠ []) (hu' : ∀ b ∈ unit, b = 9 ∨ b = 32)
    {text : List Byte} {root : TsNode} {p : Exprs} (ha : Agrees text root p)
    (hr : readText (lf text) = some p.bare) (hl : LineEnds text root) :
    ∃ x : Root, seenRoot text root = some x ∧ (Quiet o x →
        (∃ p', readText (formatted o pick unit x) = some p') ∧
        ∀ text' root' p', lf text' = formatted o pick unit x → Agrees text' root' p' →
          readText (lf text') = some p'.bare → LineEnds text' root' → (∀ t ∈ p'.tokens, 13 ∉ t.text) →
          ∃ y, seenRoot text' root' = some y ∧ formatted o pick unit y = formatted o pick unit x) := by
  obtain ⟨x, hx, hseen⟩ := parsed_seen ha hr hl
  obtain ⟨-, -, hsp, hg, hf⟩ := parsed_program ha hr hl hx
  refine ⟨x, hseen, fun hq => ?_⟩
  have hst := ordinary_steadyL _ hq.ordinary
  have hpr := hp _ (Doc.solid.prints (fmtRoot_solid o x.attach) .expanded 0)
  have hL := (prints_lays _ _ _ _ hpr).2.1 rfl
  have hre := respelled_unit hu hu' (pick (fmtRoot o x.attach)) {}
  obtain ⟨-, es', -, hread⟩ := C54_reads_text_partial o x _ _ _ hsp hg hf hq.places hst hq.clear hL hre
  refine ⟨⟨_, hread⟩, fun text' root' p' ht' ha' hr' hl' h13 => ?_⟩
  obtain ⟨y, hy, hseen'⟩ := parsed_seen ha' hr' hl'
  obtain ⟨g1, g2, g3, g4⟩ := lexed_parts hsp hg hf hq.places hst hL hre
  obtain ⟨N, hN, hs⟩ := short_bound x.attach.es.tokens
  have hg' : x.attach.es.gram = true := (grams_annotate _ _ _ _).trans hg
  have hn : x.attach.es.Noted o N := noted_ofs _ hq.noted hq.ordinary (bare_calms hg') hs fun c hc => hq.idle _
    ((attach_comments x).mem_iff.1 (List.mem_append_right _ (List.mem_map_of_mem hc)))
  have hR := rereads_noted hre g1 g2 g3 g4 (barred_noted hq.ann hN hn hpr) ht' ha' hr' hl' hy h13
  refine ⟨y, hseen', ?_⟩
  have h1 := C56_noted_partial o x y _ hper hq.ann hq.noted hg hq.ordinary hq.clear hq.idle hpr hR
  unfold formatted
  rw [hk _ _ h1.2 h1.1]

/-- C59: formatting the formatted text changes nothing, for texts whose comments all lead statements. Partial as
in `C57_noted_partial`. -/
theorem C59_noted_partial {out : Outside} {source new : String} {root root' : TsNode} {p p' : Exprs}
    (h : Accepts out source root p) (s : Settings) (hw : 1 ≤ s.indentWidth) (hp : Chooses (out.pick s))
    (hk : Consistent (out.pick s)) (hper : s.persistentLineBreaks = .respect)
    (hq : ∀ x, seenRoot (utf8 source) root = some x → Quiet (settingsOpts out.windows s) x)
    (hf : airFormat out s source = some new) (h' : Accepts out new root' p') (h13 : ∀ t ∈ p'.tokens, 13 ∉ t.text) :
    airFormat out s new = some new := by
  obtain ⟨hu, hu'⟩ := unit_ok out.windows s source.toList hw
  have hper' : (settingsOpts out.windows s).persistent = true := by
    show (s.persistentLineBreaks == .respect) = true
    rw [hper]; rfl
  obtain ⟨x, hseen, hx⟩ := C57_noted_partial (settingsOpts out.windows s) (out.pick s) hp hk hper' _ hu hu'
    h.agrees h.reads h.ends
  obtain ⟨-, hagain⟩ := hx (hq x hseen)
  obtain ⟨x', hx', hseen'⟩ := parsed_seen h.agrees h.reads h.ends
  rw [hseen'] at hseen
  cases hseen
  have h13' := hx'.no13 h.agrees h.ends (settingsOpts out.windows s) hp (unit_no13 hu')
  have hnew := airFormat_eq (s := s) h.sitter hseen'
  rw [hf] at hnew
  have hnew := ofUtf8_utf8 hnew.symm
  obtain ⟨y, hy, he⟩ := hagain (utf8 new) root' p' (by rw [hnew, lf_withEnding h13']) h'.agrees h'.reads h'.ends h13
  rw [airFormat_eq (s := s) h'.sitter hy]
  have hunit : indentUnit (toFormatOptions out.windows s new.toList) =
      indentUnit (toFormatOptions out.windows s source.toList) := rfl
  rw [hunit, he, withEnding_again h13' _ _ _ hnew, ← hnew, utf8_encode, ofUtf8_encode, String.ofList_toList]

/-- Files whose comments all lead statements. -/
structure Commented (out : Outside) (s : Settings) (old : String) : Prop where
  accepted : ∃ root p, Accepts out old root p ∧
    ∀ x, seenRoot (utf8 old) root = some x → Quiet (settingsOpts out.windows s) x
  persistent : s.persistentLineBreaks = .respect
  chooses : Chooses (out.pick s)
  consistent : Consistent (out.pick s)
  again : ∀ new, airFormat out s old = some new → ∃ root p, Accepts out new root p ∧ ∀ t ∈ p.tokens, 13 ∉ t.text

/-- C59: after a run of `air format` that ends well, a second run changes nothing and ends well, and `air format
--check` ends well and reports nothing. Partial: comments of the files all lead statements, or else as in
`C59_second_run_partial`. -/
theorem C59_noted_run_partial (out : Outside) (env : Cli.Env) (henv : env.fmt = airFormat out) (c : Cli.Command)
    (hc : c.check = false) (hs : c.stdinFilePath = none) (w : Cli.World)
    (hset : ∀ f s old, Cli.Processes env c f s → w f = some old → Settled out s old ∨ Commented out s old)
    (o : Cli.Outcome) (h : Cli.Run env c w o) (hok : o.status = .success) :
    (∀ o', Cli.Run env c o.files o' → o'.files = o.files ∧ o'.status = .success) ∧
    (∀ o', Cli.Run env { c with check := true } o.files o' →
      o'.files = o.files ∧ o'.status = .success ∧ o'.reported = []) := by
  refine (Cli.C21_converges env c hc hs w ?_ o h hok).2
  intro f s old new hf hw hn
  rw [henv] at hn ⊢
  rcases hset f s old hf hw with hse | hse
  · obtain ⟨root, p, ha, hcom, hord⟩ := hse.accepted
    obtain ⟨root', p', ha'⟩ := hse.again new hn
    exact C59_again_partial ha s (processes_width hf) hse.chooses hse.consistent hse.persistent hcom hord hn ha'
  · obtain ⟨root, p, ha, hq⟩ := hse.accepted
    obtain ⟨root', p', ha', h13⟩ := hse.again new hn
    exact C59_noted_partial ha s (processes_width hf) hse.chooses hse.consistent hse.persistent hq hn ha' h13

/-! ## A concrete case: `x`, `#c`, ` y` on three lines -/

def farText : List Byte := [120, 10, 35, 99, 10, 32, 121, 10]
def farTree : TsNode :=
  .mk .rRoot .none 0 8 [.mk .rIdentifier .none 0 1 [], .mk .comment .none 2 4 [], .mk .rIdentifier .none 6 7 []]

/-- The same without the blank. -/
def nearText : List Byte := [120, 10, 35, 99, 10, 121, 10]
def nearTree : TsNode :=
  .mk .rRoot .none 0 7 [.mk .rIdentifier .none 0 1 [], .mk .comment .none 2 4 [], .mk .rIdentifier .none 5 6 []]

def nearOutside (pick : Doc → List El) : Outside :=
  ⟨false, fun t => if t = farText then (farTree, false) else (nearTree, false), fun _ _ _ => pick⟩

theorem far_accepts (pick : Doc → List El) : Accepts (nearOutside pick) "x\n#c\n y\n" farTree twoProgram := by
  have e : utf8 "x\n#c\n y\n" = farText := by decide
  have h13 : 13 ∉ utf8 "x\n#c\n y\n" := by rw [e]; decide
  refine ⟨by rw [e]; rfl, ?_, ?_, (C57_unix h13).1, fun l hl => .ascii fun b hb => ?_⟩
  · rw [e]
    exact {
      shaped := by simp [ShapedRoot, farTree, ShapedList, Shaped, classify]
      stop := rfl
      tiled := by simp [farTree, farText, leaves, leavesList, classify, Tiled, between, isGapByte, LineEnd]
      written := ⟨rfl, _, _, rfl, ⟨rfl, .inl ⟨.inl rfl, by decide⟩⟩, _, _, rfl, ⟨rfl, .inl ⟨.inl rfl, by decide⟩⟩, rfl⟩
      comments := by decide
      strings := by simp [Joined, farTree, leaves, leavesList, classify] }
  · rw [lf_no13 h13, e]; rfl
  · have hb : b ∈ utf8 "x\n#c\n y\n" := List.mem_of_mem_drop (List.mem_of_mem_take hb)
    have hall : ∀ b ∈ utf8 "x\n#c\n y\n", b.toNat < 128 := by rw [e]; decide
    exact hall b hb

theorem near_accepts (pick : Doc → List El) : Accepts (nearOutside pick) "x\n#c\ny\n" nearTree twoProgram := by
  have e : utf8 "x\n#c\ny\n" = nearText := by decide
  have h13 : 13 ∉ utf8 "x\n#c\ny\n" := by rw [e]; decide
  refine ⟨by rw [e]; rfl, ?_, ?_, (C57_unix h13).1, fun l hl => .ascii fun b hb => ?_⟩
  · rw [e]
    exact {
      shaped := by simp [ShapedRoot, nearTree, ShapedList, Shaped, classify]
      stop := rfl
      tiled := by simp [nearTree, nearText, leaves, leavesList, classify, Tiled, between, isGapByte, LineEnd]
      written := ⟨rfl, _, _, rfl, ⟨rfl, .inl ⟨.inl rfl, by decide⟩⟩, _, _, rfl, ⟨rfl, .inl ⟨.inl rfl, by decide⟩⟩, rfl⟩
      comments := by decide
      strings := by simp [Joined, nearTree, leaves, leavesList, classify] }
  · rw [lf_no13 h13, e]; rfl
  · have hb : b ∈ utf8 "x\n#c\ny\n" := List.mem_of_mem_drop (List.mem_of_mem_take hb)
    have hall : ∀ b ∈ utf8 "x\n#c\ny\n", b.toNat < 128 := by rw [e]; decide
    exact hall b hb

/-- What the formatter sees of the first text. -/
def farRoot : Root := ⟨{}, .cons (.atom {} .rIdentifier ⟨.ident, [], [120], []⟩) (.cons (.atom {} .rIdentifier
  ⟨.ident, [⟨.newline, [10]⟩, ⟨.comment, [35, 99]⟩, ⟨.newline, [10]⟩, ⟨.whitespace, [32]⟩], [121], []⟩) .nil),
  ⟨.eof, [⟨.newline, [10]⟩], [], []⟩⟩

theorem far_seen : seenRoot (utf8 "x\n#c\n y\n") farTree = some farRoot := by
  have e : utf8 "x\n#c\n y\n" = farText := by decide
  have h1 : parse farText farTree false = some (fileTree farRoot, false) := by rfl
  unfold seenRoot
  rw [e, h1]
  rfl

theorem far_quiet : Quiet (settingsOpts false Settings.default) farRoot where
  ann := by decide +kernel
  noted := by decide +kernel
  ordinary := by decide +kernel
  clear := by decide +kernel
  idle := by decide +kernel
  places := by decide +kernel

/-- A comment is attached to the second statement. -/
example : farRoot.attach.es.comments.map Comment.text = [[35, 99]] := by decide +kernel

def farEls : List El := lay true false false .expanded 0 (fmtRoot (settingsOpts false Settings.default) farRoot.attach)

theorem far_formats (pick : Doc → List El) (hp : Chooses pick) :
    airFormat (nearOutside pick) Settings.default "x\n#c\n y\n" = some "x\n#c\ny\n" := by
  have hpr := hp _ (Doc.solid.prints (fmtRoot_solid (settingsOpts false Settings.default) farRoot.attach) .expanded 0)
  have h1 := (mem_layouts (by decide +kernel)).2 hpr
  have h2 : ∀ w ∈ layouts .expanded 0 (fmtRoot (settingsOpts false Settings.default) farRoot.attach), w = farEls := by
    decide +kernel
  have e : utf8 "x\n#c\n y\n" = farText := by decide
  rw [airFormat_eq (root := farTree) (by rw [e]; rfl) far_seen]
  unfold formatted
  have h3 : (nearOutside pick).pick Settings.default = pick := rfl
  have h4 : (nearOutside pick).windows = false := rfl
  rw [h3, h4, h2 _ h1]
  have h5 : withEnding (Settings.default.lineEnding.finalize false "x\n#c\n y\n".toList) (render (printUnit
      (indentUnit (toFormatOptions false Settings.default "x\n#c\n y\n".toList)) {} farEls)) =
      LineEnding.encode ['x', '\n', '#', 'c', '\n', 'y', '\n'] := by
    decide +kernel
  rw [h5, ofUtf8_encode]

/-- The text meets the hypotheses of `C59_noted_run_partial`, and so of `C57_noted_partial` and
`C59_noted_partial`. -/
theorem far_commented (pick : Doc → List El) (hp : Chooses pick) (hk : Consistent pick) :
    Commented (nearOutside pick) Settings.default "x\n#c\n y\n" where
  accepted := ⟨farTree, twoProgram, far_accepts pick, fun x hx => by
    rw [far_seen] at hx; cases hx; exact far_quiet⟩
  persistent := rfl
  chooses := hp
  consistent := hk
  again new hn := by
    rw [far_formats pick hp] at hn; cases hn
    exact ⟨nearTree, twoProgram, near_accepts pick, by decide⟩

end Verif.Whole

namespace Verif.Format
open Verif.Syntax Ex

/-! ## Examples -/

/-- A line break, a comment on the next line and another line break. -/
def after (c : String) : List Piece := [⟨.newline, [10]⟩, ⟨.comment, tx c⟩, ⟨.newline, [10]⟩]

/-- `# a`, `if (a) {`, `# b`, `b=1`, `}`, an empty line, `# c`, `d`. -/
def noting : Root := file
  [.ite {} ⟨.ifKw, [⟨.comment, tx "# a"⟩, ⟨.newline, [10]⟩], tx "if", []⟩ (ts .lParen "(") (Ex.id (tk .ident "a"))
    (tk .rParen ")") (.braced {} (tk .lCurly "{")
      (list [.binary {} (Ex.id ⟨.ident, after "# b", tx "b", []⟩) (tk .equal "=") (num (tk .rDoubleLiteral "1"))])
      (tn .rCurly "}")),
   Ex.id ⟨.ident, ⟨.newline, [10]⟩ :: after "# c", tx "d", []⟩]

/-- What is read in the formatted text. -/
def notedAgain : Root := file
  [.ite {} ⟨.ifKw, [⟨.comment, tx "# a"⟩, ⟨.newline, [10]⟩], tx "if", []⟩ (ts .lParen "(") (Ex.id (tk .ident "a"))
    (tk .rParen ")") (.braced {} (ts .lCurly "{")
      (list [.binary {} (Ex.id ⟨.ident, after "# b", tx "b", []⟩) (ts .assign "<-") (num (ts .rDoubleLiteral "1"))])
      (tn .rCurly "}")),
   Ex.id ⟨.ident, ⟨.newline, [10]⟩ :: after "# c", tx "d", []⟩]

/-- A layout of `noting`. -/
def notingEls : List El := lay true false false .expanded 0 (fmtRoot (opts .arrow []) noting.attach)

example : render (emit notingEls) =
    tx "# a\nif (a) {\n\t# b\n\tb <- 1\n}\n\n# c\nd\n" := by decide +kernel
example : Prints .expanded 0 (fmtRoot (opts .arrow []) noting.attach) notingEls :=
  (mem_layouts (by decide +kernel)).1 (by decide +kernel)
example : noting.attach.ann = {} ∧ noting.attach.es.noted = true ∧ noting.es.gram = true ∧
    noting.attach.es.ordinary (opts .arrow []) = true ∧ noting.attach.es.clear (opts .arrow []) = true ∧
    noting.attach.es.comments.length = 3 := by decide +kernel
example : ∀ c ∈ noting.sourceComments, (opts .arrow []).directive c = none ∧ (opts .arrow []).generated c = false := by
  decide +kernel

theorem own_check {ps : List Piece} (h : (match ps with
    | [] => true
    | p :: l => p.kind == .newline && p.text.contains 10 || !hasComment (p :: l)) = true) :
    Verif.Parser.CommentsOnOwnLine ps := by
  cases ps with
  | nil => exact own_free rfl
  | cons p l =>
    simp only [Bool.or_eq_true, Bool.and_eq_true, beq_iff_eq, Bool.not_eq_true'] at h
    rcases h with ⟨h1, h2⟩ | h
    · intro A c B e hc
      cases A with
      | nil =>
        cases e
        rw [h1] at hc
        cases hc
      | cons a A =>
        cases e
        exact ⟨p, by simp, h1, by simpa using h2⟩
    · exact own_free h

theorem notedAgain_read : RereadsNoted (emit notingEls) notedAgain where
  text := by decide +kernel
  strings := by decide +kernel
  lines := by decide +kernel
  own t ht := own_check (by revert t; decide +kernel)
  last := by decide +kernel
  gram := by decide +kernel
  fits := by decide +kernel

end Verif.Format
