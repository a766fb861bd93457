import Verif.Lemmas.FactoryParsed
import Verif.Lemmas.Reread
import Verif.Props.Lexer
import Verif.Props.Parser
import Verif.Props.Stable

/-!
# C57: from text to text

Texts that R accepts, through the parser and the formatter.
-/

namespace Verif.Whole
open Verif.Syntax Verif.Parser Verif.Format

/-- C57: if R reads the text as the program `p` (`lf`: R takes the two characters at the end of a line in a file
from Windows for one), and tree-sitter gives the tree of `p`, then the parser reports no error, and its tree is the
tree of a program with exactly the text, which is `p` except for white space and comments; this program is what the
formatter sees in the fields of the nodes (C58). It meets the conditions on programs and trees of the other
properties (C29, C36–C42, C53–C56). -/
theorem C57_parses {text : List Byte} {root : TsNode} {p : Exprs} (ha : Agrees text root p)
    (hr : readText (lf text) = some p.bare) (hl : LineEnds text root) : ∃ x : Root,
      parse text root false = some (fileTree x, false) ∧ seenRoot text root = some x ∧
      x.text = lf text ∧ x.es.bare = p.bare ∧ x.Spelled ∧
      x.es.gram = true ∧ Fits (shapes .top .free x.es) (seen .fresh (rawFile x.es.tokens x.eof)) ∧
      RangeFormat.Lists true (fileTree x) := by
  obtain ⟨x, hp, hs⟩ := parsed_seen ha hr hl
  obtain ⟨h1, h2, h3, h4, h5⟩ := parsed_program ha hr hl hp
  exact ⟨x, hp.parse, hs, h1, h2, h3, h4, h5, parsed_lists ha hr hl hp⟩

/-- A text without carriage returns has proper line ends. -/
theorem C57_unix {text : List Byte} {root : TsNode} (h : 13 ∉ text) :
    LineEnds text root ∧ lf text = text := by
  refine ⟨⟨lined_no13 h, fun l _ => ⟨?_, ?_⟩, fun l _ _ _ hm => h (List.mem_of_mem_drop (List.mem_of_mem_take hm))⟩, lf_no13 h⟩ <;>
  · intro a b e
    exact absurd (by rw [e]; simp) h

/-- C57 with C54 and C39: R reads what the formatter makes of the text as the same program, up to `=` and
`<-` and braces around bodies. Partial: comments at risky places, and code kept as it is in unsteady
places, are excluded as there. -/
theorem C57_formats_partial {text : List Byte} {root : TsNode} {p : Exprs} (ha : Agrees text root p)
    (hr : readText (lf text) = some p.bare) (hl : LineEnds text root) : ∃ x : Root,
      seenRoot text root = some x ∧ x.es.bare = p.bare ∧
      ∀ (o : Opts) (m : Mode) (els out : List El),
        (∀ d ∈ x.view.decos [] true, d.risky x.view = false) → SteadyL o x.attach.es →
        x.attach.es.clear o = true → Lays false m 0 (fmtRoot o x.attach) els → Respelled (emit els) out →
        ∃ es', (Becomess o true x.attach.es es' ∨
            rootSuppressed o x.attach.es = true ∧ es' = x.attach.es) ∧
          readText (render out) = some es'.bare := by
  obtain ⟨x, _, h1, _, h3, h4, h5, h6, _⟩ := C57_parses ha hr hl
  exact ⟨x, h1, h3, fun o m els out c1 c2 c3 c4 c5 =>
    (C54_reads_text_partial o x m els out h4 h5 h6 c1 c2 c3 c4 c5).2⟩

/-- C57 with C56: a text without comments is formatted to a text that R reads, and if this text (with any kind of
line ends) is parsed and formatted again nothing changes. Partial: texts without comments and without functions
listed in the settings, with persistent line breaks, and printers with consistent choices, as in C56. -/
theorem C57_idempotent_partial (o : Opts) (pick : Doc → List El) (hp : Chooses pick) (hk : Consistent pick)
    (hper : o.persistent = true) (unit : List Byte) (hu : unit ≠ []) (hu' : ∀ b ∈ unit, b = 9 ∨ b = 32)
    {text : List Byte} {root : TsNode} {p : Exprs} (ha : Agrees text root p)
    (hr : readText (lf text) = some p.bare) (hl : LineEnds text root)
    (hcom : ∀ l ∈ leaves root, l.isComment = false) :
    ∃ x : Root, seenRoot text root = some x ∧
      (x.attach.es.ordinary o = true → x.attach.es.clear o = true →
        13 ∉ formatted o pick unit x ∧ (∃ p', readText (formatted o pick unit x) = some p') ∧
        ∀ text' root' p', lf text' = formatted o pick unit x → Agrees text' root' p' →
          readText (lf text') = some p'.bare → LineEnds text' root' →
          ∃ y, seenRoot text' root' = some y ∧
            formatted o pick unit y = formatted o pick unit x) := by
  obtain ⟨x, hx, hseen⟩ := parsed_seen ha hr hl
  obtain ⟨-, -, hsp, hg, hf⟩ := parsed_program ha hr hl hx
  refine ⟨x, hseen, fun ho hcl => ?_⟩
  have hcs : x.sourceComments = [] := by
    have h0 : leafComments (leaves root) = [] := by
      unfold leafComments
      rw [List.map_eq_nil_iff, List.filter_eq_nil_iff]
      intro l hl; simp [hcom l hl]
    have h1 := hx.comments
    rw [h0] at h1
    have h2 : ∀ t ∈ allTokens x, ∀ q ∈ t.leading ++ t.trailing, q.kind ≠ .comment := by
      intro t ht q hq hk'
      have h3 := List.flatten_eq_nil_iff.1 h1 (tokenComments t) (List.mem_map_of_mem ht)
      unfold tokenComments pieceComments at h3
      rw [List.map_eq_nil_iff, List.filter_eq_nil_iff] at h3
      exact h3 q hq (by simp [hk'])
    unfold Root.sourceComments commentTexts
    rw [List.map_eq_nil_iff, List.filter_eq_nil_iff]
    intro q hq
    simp only [beq_iff_eq]
    rcases List.mem_append.1 hq with hq | hq
    · obtain ⟨t, ht, hq⟩ := List.mem_flatMap.1 hq
      exact h2 t (List.mem_append_left _ ht) q hq
    · exact h2 x.eof (by simp [allTokens]) q (List.mem_append_left _ hq)
  have hdecos : ∀ d ∈ x.view.decos [] true, d.risky x.view = false := by
    have := root_decos x
    rw [hcs, List.map_eq_nil_iff] at this
    rw [this]; nofun
  have hst := ordinary_steadyL _ ho
  have hpr := hp _ (Doc.solid.prints (fmtRoot_solid o x.attach) .expanded 0)
  have hL := (prints_lays _ _ _ _ hpr).2.1 rfl
  have hclean := clean_root (attach_free hcs).1 (attach_free hcs).2 ho ((grams_annotate _ _ _ _).trans hg)
    (by rw [attach_tokens]; exact trivia_free hcs) hpr
  have hprinted := printed_els (pick (fmtRoot o x.attach)) {} rfl hclean
  have hre := respelled_unit hu hu' (pick (fmtRoot o x.attach)) {}
  obtain ⟨-, es', -, hread⟩ := C54_reads_text_partial o x _ _ _ hsp hg hf hdecos hst hcl hL hre
  refine ⟨?_, ⟨_, hread⟩, fun text' root' p' ht' ha' hr' hl' => ?_⟩
  · unfold formatted
    rw [printUnit_clean _ _ fun e he bs hb => by have := hclean e he; rw [hb] at this; cases this]
    refine reindent_no13 hu hu' hprinted (edits_no13 (C36_tokens o x.attach _ _ hL) ?_)
    intro t ht
    obtain ⟨u, hu, rfl⟩ := List.mem_map.1 ht
    rw [attach_tokens] at hu
    have h1 := hx.token ha hl hu
    rw [outTok_lf h1.1]
    exact lf_lined h1.2
  obtain ⟨y, hy, hseen'⟩ := parsed_seen ha' hr' hl'
  obtain ⟨g1, g2, g3, g4⟩ := lexed_parts hsp hg hf hdecos hst hL hre
  have hR : Rereads (emit (pick (fmtRoot o x.attach))) y :=
    rereads (printed_mute hprinted) hre g1 g2 g3 g4 ht' ha' hr' hl' hy
  refine ⟨y, hseen', ?_⟩
  have h1 := C56_again_partial o x y _ hper hcs hg ho hcl hpr hR
  unfold formatted
  rw [hk _ _ h1.2 h1.1]

/-! ## A concrete case

`f(,x) # c`, as in `Verif.Props.Parser`. -/

def demoProgram : Exprs :=
  .cons (.call {} .call (.atom {} .rIdentifier ⟨.ident, [], [102], []⟩) {} ⟨.lParen, [], [40], []⟩
    (.cons (.hole {}) ⟨.comma, [], [44], []⟩
      (.last (.val {} (.atom {} .rIdentifier ⟨.ident, [], [120], []⟩)))) ⟨.rParen, [], [41], []⟩) .nil

theorem demo_agrees : Agrees demoText demo demoProgram where
  shaped := demo_hypotheses.1
  stop := demo_hypotheses.2.1
  tiled := demo_hypotheses.2.2
  written := by
    refine ⟨rfl, _, _, rfl, ⟨rfl, _, _, _, [.mk .comma .none 2 3 [],
      .mk .rArgument .none 3 4 [.mk .rIdentifier .other 3 4 []]], _, rfl, ?_, nofun, rfl, rfl, ?_, rfl,
      ?_, ?_, ?_⟩, rfl⟩
    · intro c hc hk
      simp only [TsNode.children, List.mem_cons, List.not_mem_nil, or_false] at hc
      rcases hc with rfl | rfl <;> cases hk
    · exact ⟨rfl, .inl ⟨.inl rfl, by decide⟩⟩
    · exact ⟨rfl, .inl rfl, by decide⟩
    · exact ⟨[], _, _, rfl, rfl, rfl, ⟨rfl, .inl rfl, by decide⟩, rfl, _, _, rfl, rfl, rfl, rfl,
        .inl ⟨.inl rfl, by decide⟩⟩
    · exact ⟨rfl, .inl rfl, by decide⟩
  comments := by decide
  strings := by simp [Joined, demo, leaves, leavesList, classify]

example : readText (lf demoText) = some demoProgram.bare ∧ LineEnds demoText demo :=
  ⟨by rfl, (C57_unix (by decide)).1⟩

/-- `f( x)`: a file without comments. -/
def shortText : List Byte := [102, 40, 32, 120, 41, 10]

def short : TsNode :=
  .mk .rRoot .none 0 6
    [.mk .rCall .none 0 5
      [.mk .rIdentifier .other 0 1 [],
       .mk .rCallArguments .arguments 1 5
         [.mk .lParen .none 1 2 [], .mk .rArgument .none 3 4 [.mk .rIdentifier .other 3 4 []],
          .mk .rParen .none 4 5 []]]]

def shortProgram : Exprs :=
  .cons (.call {} .call (.atom {} .rIdentifier ⟨.ident, [], [102], []⟩) {} ⟨.lParen, [], [40], []⟩
    (.last (.val {} (.atom {} .rIdentifier ⟨.ident, [], [120], []⟩))) ⟨.rParen, [], [41], []⟩) .nil

def shortRoot : Root :=
  ⟨{}, .cons (.call {} .call (.atom {} .rIdentifier ⟨.ident, [], [102], []⟩) {} ⟨.lParen, [], [40], []⟩
    (.last (.val {} (.atom {} .rIdentifier ⟨.ident, [⟨.whitespace, [32]⟩], [120], []⟩)))
    ⟨.rParen, [], [41], []⟩) .nil, ⟨.eof, [⟨.newline, [10]⟩], [], []⟩⟩

theorem short_agrees : Agrees shortText short shortProgram where
  shaped := by
    simp only [ShapedRoot, short, ShapedList, Shaped, classify, true_and, and_true]
    refine ⟨?_, .lParen, .rParen, by decide, ⟨_, [_], _, rfl, rfl, rfl, ?_⟩, ?_⟩
    · simp [ArgumentShape, TsNode.kind, TsNode.field]
    · simp [TsNode.kind]
    · intro a x b y c e hx hy
      have := congrArg (List.countP fun n => n.kind = .rArgument) e
      simp [List.countP_cons, hx, hy] at this
      simp [TsNode.kind] at this
      omega
  stop := rfl
  tiled := by simp [short, shortText, leaves, leavesList, classify, Tiled, between, isGapByte]
  written := by
    refine ⟨rfl, _, _, rfl, ⟨rfl, _, _, _, [.mk .rArgument .none 3 4 [.mk .rIdentifier .other 3 4 []]], _,
      rfl, ?_, nofun, rfl, rfl, ?_, rfl, ?_, ?_, ?_⟩, rfl⟩
    · intro c hc hk
      simp only [TsNode.children, List.mem_cons, List.not_mem_nil, or_false] at hc
      rcases hc with rfl | rfl <;> cases hk
    · exact ⟨rfl, .inl ⟨.inl rfl, by decide⟩⟩
    · exact ⟨rfl, .inl rfl, by decide⟩
    · exact ⟨rfl, _, _, rfl, rfl, rfl, rfl, .inl ⟨.inl rfl, by decide⟩⟩
    · exact ⟨rfl, .inl rfl, by decide⟩
  comments := by decide
  strings := by simp [Joined, short, leaves, leavesList, classify]

example : readText (lf shortText) = some shortProgram.bare ∧ LineEnds shortText short ∧
    ∀ l ∈ leaves short, l.isComment = false := ⟨by rfl, (C57_unix (by decide)).1, by decide⟩
example : parse shortText short false = some (fileTree shortRoot, false) := by rfl
example : (seenRoot shortText short).map (fun x => x.es.tokens) = some shortRoot.es.tokens := by decide +kernel
example : shortRoot.attach.es.ordinary (Ex.opts .arrow []) = true ∧
    shortRoot.attach.es.clear (Ex.opts .arrow []) = true := by decide +kernel

/-- A file from Windows: a string on two lines, and a comment. -/
def windowsText : List Byte := [34, 97, 13, 10, 98, 34, 32, 35, 99, 13, 10]

def windows : TsNode :=
  .mk .rRoot .none 0 11
    [.mk .rStringValue .none 0 6
      [.mk .stringOpen .other 0 1 [], .mk .stringContent .other 1 5 [], .mk .stringClose .other 5 6 []],
     .mk .comment .none 7 9 []]

def windowsProgram : Exprs :=
  .cons (.str {} ⟨.stringOpen, [], [34], []⟩ (some ⟨.stringContent, [], [97, 13, 10, 98], []⟩)
    ⟨.stringClose, [], [34], []⟩) .nil

theorem windows_agrees : Agrees windowsText windows windowsProgram where
  shaped := by simp [ShapedRoot, windows, ShapedList, Shaped, classify]
  stop := rfl
  tiled := by
    simp [windows, windowsText, leaves, leavesList, classify, Tiled, between, isGapByte, LineEnd]
  written := by
    refine ⟨rfl, _, _, rfl, ⟨rfl, _, [_], _, rfl, ?_, ?_, ?_⟩, rfl⟩
    · exact ⟨rfl, .inl rfl, by decide⟩
    · exact ⟨rfl, .inl rfl, by decide⟩
    · exact ⟨_, rfl, rfl, .inr rfl, by decide⟩
  comments := by decide
  strings := by simp [Joined, windows, leaves, leavesList, classify]

theorem windows_lines : LineEnds windowsText windows where
  lined := lined_get (by decide)
  apart l hl := by
    have : ∀ l ∈ leaves windows, ¬ (windowsText[l.start - 1]? = some 13 ∧ windowsText[l.start]? = some 10) ∧
        ¬ (windowsText[l.stop - 1]? = some 13 ∧ windowsText[l.stop]? = some 10) := by decide
    exact ⟨apart_get (this l hl).1, apart_get (this l hl).2⟩
  tokens := by decide

example : readText (lf windowsText) = some windowsProgram.bare := by rfl
example : lf windowsText = [34, 97, 10, 98, 34, 32, 35, 99, 10] := by decide

end Verif.Whole
