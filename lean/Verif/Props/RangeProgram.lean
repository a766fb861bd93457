import Verif.Lemmas.SpliceRange
import Verif.Props.AirFormat

/-!
# C60: formatting a selection keeps the program

The edit that range formatting makes to the text of a file, and what R reads in the edited text. The whole
path is covered: parser, choice of the statements (C29), artificial root, factory, comments, rules, printer, removal of
the last character, replacement of the range.
-/

namespace Verif.Whole
open Verif.Syntax Verif.Parser Verif.Format Verif.RangeFormat
open Verif.LineEnding (Ending toCrlf)

/-- A printer that starts at indentation `i`: it chooses one of the layouts. -/
def ChoosesAt (i : Nat) (pick : Doc → List El) : Prop :=
  ∀ d, (∃ x, Prints .expanded i d x) → Prints .expanded i d (pick d)

/-- The artificial root is cast without a panic, and what is printed is the root for these statements. -/
theorem formatSub_eq (o : Opts) (pick : Doc → List El) (unit : List Byte) (ending : Ending) {mid : Exprs}
    (hg : mid.gram = true) (hl : mid.loops = true) : formatSub o pick unit ending (rootOf (exprTrees mid)) =
      some (some (withEnding ending (formatted o pick unit (rootFor mid)))) := by
  obtain ⟨s, h1, -, h3⟩ := shown_root (x := rootFor mid) hg hl rfl
  have h2 : (rootOf (exprTrees mid)).slotted = some s := h1
  have h4 : formatted o pick unit (rootFor mid).plainly = formatted o pick unit (rootFor mid) := by
    unfold formatted; rw [plainly_attach]
  simp [formatSub, h2, h3, h4]

/-- Statements that are printed end with a line feed. -/
theorem sub_last {o : Opts} {mid : Exprs} (hne : mid ≠ .nil) {m : Mode} {i : Nat} {els out : List El}
    (hs : rootSuppressed o (rootFor mid).attach.es = false)
    (hL : Lays false m i (fmtRoot o (rootFor mid).attach) els) (hr : Respelled (emit els) out) :
    ∃ out', out = out' ++ [.rnl] := by
  obtain ⟨mid', hR, hrd⟩ := reads_sub (st := false) hs (tames_weak o .top {} true _) hL
  have hmne : (rootFor mid).attach.es ≠ .nil := by
    intro h
    have := attach_tokens (rootFor mid)
    rw [h] at this
    exact exprs_tokens_ne hne this.symm
  have hne' : mid' ≠ .nil := becomess_ne (rews_becomes o _ _ _ _ hR) hmne
  obtain ⟨b, rfl⟩ := root_last hs (attach_ann _ hne) hL
  have hbne : printedToks b ≠ [] := by
    intro hb
    have h1 := hrd.2
    rw [printedToks_append, hb, shapes_toks] at h1
    exact exprs_tokens_ne hne' (by simpa [printedToks] using h1.symm)
  obtain ⟨w, hw⟩ := emit_last (e := false) (i := i) hbne
  rw [hw] at hr
  obtain ⟨out', h, -⟩ := respelled_last hr
  exact ⟨out', h⟩

/-- C60: if R accepts a text with Unix line ends, and tree-sitter gives the tree of the program, then formatting a
selection either changes nothing, or replaces a range of the text that holds some statements `mid` of the program,
which stand among the statements of the file or of a block (`C`). R reads the edited text as the program with
`mid` changed as the formatter does it (`=` and `<-`, braces around bodies) and everything else as before.

Partial: comments inside of the statements must not be at risky places, as in C54, and if there are comments the
next statement must be on a line of its own (see `C60_comment_swallows`); code kept as it is must be steady, as in
C54; the first comment must not ask to skip the file (see `C60_skip_file_cut`); the line ending is LF (see
`C60_crlf_left`). -/
theorem C60_program_partial (o : Opts) (pick : Doc → List El) (i : Nat) (hpk : ChoosesAt i pick)
    (unit : List Byte) (hu : unit ≠ []) (hu' : ∀ b ∈ unit, b = 9 ∨ b = 32)
    {text : List Byte} {root : TsNode} {p : Exprs} (h13 : 13 ∉ text) (ha : Agrees text root p)
    (hr : readText text = some p.bare) (start stop : Nat) (hle : start ≤ stop) :
    ∃ x, parse text root false = some (fileTree x, false) ∧ seenRoot text root = some x ∧ x.es.bare = p.bare ∧
      (logicalLines (fileTree x) start stop = [] ∧
        formatSelection (formatSub o pick unit .lf) (fileTree x) start stop = some none ∨
      ∃ A C B mid a b new, InExprs A C B ∧ x.es = C mid ∧ mid ≠ .nil ∧
        (logicalLines (fileTree x) start stop).map Prod.snd = exprTrees mid ∧
        formatSelection (formatSub o pick unit .lf) (fileTree x) start stop = some (some ((a, b), new)) ∧
        a ≤ b ∧ b ≤ text.length ∧
        ((∀ d ∈ (rootFor mid).view.decos [] true, d.risky (rootFor mid).view = false) →
          SteadyL o (rootFor mid).attach.es → (rootFor mid).attach.es.clear o = true →
          rootSuppressed o (rootFor mid).attach.es = false →
          ((rootFor mid).sourceComments = [] ∨ ∀ u ∈ B.head?, ∃ q ∈ u.leading, q.kind = .newline) →
          ∃ mid', Becomess o true (rootFor mid).attach.es mid' ∧
            readText (text.take a ++ new ++ text.drop b) = some (C mid').bare)) := by
  obtain ⟨hl, hlf⟩ := C57_unix (root := root) h13
  have hr' : readText (lf text) = some p.bare := by rw [hlf]; exact hr
  obtain ⟨x, hp, hseen, hbald, hloops⟩ := parsed_bald ha hr' hl
  obtain ⟨-, hb, hsp, hg, hf⟩ := parsed_program ha hr' hl hp
  refine ⟨x, hp.parse, hseen, hb, ?_⟩
  rcases selected ha hr' hl hp start stop hle with h | ⟨A, C, B, mid, hC, he, hne, hpos, hlines⟩
  · exact .inl ⟨h, by simp [formatSelection, h, formatRange]⟩
  right
  have mg : mid.gram = true := (hC.gram (m := mid) (he ▸ hg)).1
  have ml : mid.loops = true := hC.loops (he ▸ hloops)
  obtain ⟨P, M, Q, a, b, hraw, tP, tM, tQ, hP, hM, hrange, hrp, hrq, hab, hbl, hnl⟩ :=
    range_text h13 hp hC he hne hpos
  have hsel : formatSelection (formatSub o pick unit .lf) (fileTree x) start stop =
      some (some ((a, b), (formatted o pick unit (rootFor mid)).dropLast)) := by
    have hall : ((located (fullLen A) (exprTrees mid)).all fun (_, t) => isExpression t.kind) = true := by
      rw [List.all_eq_true]
      intro q hq
      exact isExpression_trees mg q.2 (by
        rw [← located_snd (fullLen A) (exprTrees mid)]; exact List.mem_map_of_mem hq)
    unfold formatSelection
    rw [hlines]
    simp only [hrange, hall, if_true, located_snd, formatSub_eq o pick unit .lf mg ml, withEnding]
  refine ⟨A, C, B, mid, a, b, _, hC, he, hne, by rw [hlines, located_snd], hsel, hab, hbl, ?_⟩
  intro c1 c2 c3 c4 c5
  have hpr := hpk _ (Doc.solid.prints (fmtRoot_solid o (rootFor mid).attach) .expanded i)
  have hL := (prints_lays _ _ _ _ hpr).2.1 rfl
  have hre := respelled_unit hu hu' (pick (fmtRoot o (rootFor mid).attach)) {}
  have hland : printedComments (printUnit unit {} (pick (fmtRoot o (rootFor mid).attach))) = [] ∨
      (seen .comment Q).length = (printedToks Q).length := by
    rcases c5 with h | h
    · left
      have hd : (rootFor mid).view.decos [] true = [] := by
        have := root_decos (rootFor mid)
        rw [h, List.map_eq_nil_iff] at this; exact this
      rw [← respelled_printed hre]
      have h1 := (printedComments_emit (pick (fmtRoot o (rootFor mid).attach))).trans
        ((Coms.root c4 (proper_root _) (verbs_root (rootFor mid) (by rw [hd]; exact ⟨nofun, nofun⟩)) _ _ _ _ hL).trans
          (attach_comments (rootFor mid)))
      rw [h] at h1
      exact h1.eq_nil
    · right
      rw [hnl h .comment (endState (endState .fresh P) M)]
      have h1 := congrArg List.length ((fits_toks hf).trans (shapes_toks _ _ _))
      rw [hraw, seen_append, seen_append, endState_append, he, hC.tokens] at h1
      have a1 := seen_short .fresh P
      have a2 := seen_short (endState .fresh P) M
      have a3 := seen_short (endState (endState .fresh P) M) Q
      rw [tP] at a1
      rw [tM] at a2
      rw [tQ] at a3 ⊢
      simp only [List.length_append, List.length_map] at h1 a1 a2 a3 ⊢
      omega
  obtain ⟨out', mid', ho, hB, hread⟩ := splice hsp hg hf (by rw [hbald]; nofun) hC he hne hraw tP tM tQ hP hM c1 c2 c3 c4
    hL hre hland
  refine ⟨mid', hB, ?_⟩
  have hnew : (formatted o pick unit (rootFor mid)).dropLast = render out' := by
    unfold formatted
    rw [ho, render_append]
    have : render [El.rnl] = [10] := rfl
    rw [this, List.dropLast_concat]
  rw [hnew, ← hrp, ← hrq, ← render_append, ← render_append]
  exact hread

/-- C60 fails for `line-ending = "crlf"`: only the line feed of the last line end is removed, so that a carriage
return is left at the end of the formatted statements. -/
theorem C60_crlf_left (o : Opts) (pick : Doc → List El) (i : Nat) (hpk : ChoosesAt i pick)
    (unit : List Byte) (hu : unit ≠ []) (hu' : ∀ b ∈ unit, b = 9 ∨ b = 32)
    {text : List Byte} {root : TsNode} {p : Exprs} (ha : Agrees text root p)
    (hr : readText (lf text) = some p.bare) (hl : LineEnds text root) (start stop : Nat) (hle : start ≤ stop) :
    ∃ x, seenRoot text root = some x ∧ ∀ range new,
      formatSelection (formatSub o pick unit .crlf) (fileTree x) start stop = some (some (range, new)) →
      ∃ mid, (logicalLines (fileTree x) start stop).map Prod.snd = exprTrees mid ∧
        (rootSuppressed o (rootFor mid).attach.es = false → ∃ w, new = w ++ [13]) := by
  obtain ⟨x, hp, hseen, hbald, hloops⟩ := parsed_bald ha hr hl
  obtain ⟨-, hb, hsp, hg, hf⟩ := parsed_program ha hr hl hp
  refine ⟨x, hseen, fun range new hsel => ?_⟩
  rcases selected ha hr hl hp start stop hle with h | ⟨A, C, B, mid, hC, he, hne, hpos, hlines⟩
  · simp [formatSelection, h, formatRange] at hsel
  refine ⟨mid, by rw [hlines, located_snd], fun hs => ?_⟩
  have mg : mid.gram = true := (hC.gram (m := mid) (he ▸ hg)).1
  have ml : mid.loops = true := hC.loops (he ▸ hloops)
  have hpr := hpk _ (Doc.solid.prints (fmtRoot_solid o (rootFor mid).attach) .expanded i)
  obtain ⟨out', ho⟩ := sub_last hne hs ((prints_lays _ _ _ _ hpr).2.1 rfl)
    (respelled_unit hu hu' (pick (fmtRoot o (rootFor mid).attach)) {})
  unfold formatSelection at hsel
  rw [hlines] at hsel
  simp only [located_snd, formatSub_eq o pick unit .crlf mg ml, withEnding] at hsel
  split at hsel
  · cases hsel
  · split at hsel
    · simp only [Option.some.injEq, Prod.mk.injEq] at hsel
      refine ⟨toCrlf 13 10 (render out'), ?_⟩
      rw [← hsel.2]
      unfold formatted
      rw [ho, render_append]
      have h1 : toCrlf 13 10 (render out' ++ render [El.rnl]) = toCrlf 13 10 (render out') ++ [13] ++ [10] := by
        have : render [El.rnl] = [10] := rfl
        rw [this]; simp [toCrlf]
      rw [h1, List.dropLast_concat]
    · cases hsel

/-! ## Concrete cases -/

mutual
/-- Comparison of trees. -/
def sameTree : Tree → Tree → Bool
  | .token t, .token u => t == u
  | .node k cs, .node j ds => k == j && sameTrees cs ds
  | _, _ => false
def sameTrees : List Tree → List Tree → Bool
  | [], [] => true
  | c :: cs, d :: ds => sameTree c d && sameTrees cs ds
  | _, _ => false
end

mutual
theorem sameTree_eq : ∀ {t u : Tree}, sameTree t u = true → t = u
  | .token t, .token u, h => by simp [sameTree] at h; rw [h]
  | .node k cs, .node j ds, h => by
    simp only [sameTree, Bool.and_eq_true, beq_iff_eq] at h
    rw [h.1, sameTrees_eq h.2]
  | .token _, .node .., h => by simp [sameTree] at h
  | .node .., .token _, h => by simp [sameTree] at h
theorem sameTrees_eq : ∀ {ts us : List Tree}, sameTrees ts us = true → ts = us
  | [], [], _ => rfl
  | c :: cs, d :: ds, h => by
    simp only [sameTrees, Bool.and_eq_true] at h
    rw [sameTree_eq h.1, sameTrees_eq h.2]
  | [], _ :: _, h => by simp [sameTrees] at h
  | _ :: _, [], h => by simp [sameTrees] at h
end

theorem parses_as {text : List Byte} {root : TsNode} {t : Tree}
    (h : (parse text root false).any (fun q => sameTree q.1 t && !q.2) = true) :
    parse text root false = some (t, false) := by
  cases hp : parse text root false with
  | none => rw [hp] at h; cases h
  | some q =>
    obtain ⟨t', b⟩ := q
    rw [hp] at h
    simp only [Option.any_some, Bool.and_eq_true, Bool.not_eq_true'] at h
    rw [sameTree_eq h.1, h.2]

/-- All layouts of the statements are the same, so that every printer prints the same. -/
theorem picked {o : Opts} {pick : Doc → List El} {i : Nat} (hp : ChoosesAt i pick) {mid : Exprs} {unit out : List Byte}
    (h1 : (fmtRoot o (rootFor mid).attach).padless = true)
    (h2 : ∀ w ∈ layouts .expanded i (fmtRoot o (rootFor mid).attach), render (printUnit unit {} w) = out) :
    formatted o pick unit (rootFor mid) = out :=
  h2 _ ((mem_layouts h1).2 (hp _ (Doc.solid.prints (fmtRoot_solid o (rootFor mid).attach) .expanded i)))

/-- What is done for the lines at `start`. -/
theorem selects {o : Opts} {pick : Doc → List El} {unit out : List Byte} {ending : Ending} {t : Tree} {start stop : Nat}
    {mid : Exprs} {a b : Nat} (hg : mid.gram = true) (hl : mid.loops = true) (h1 : formatRange (logicalLines t start stop) = some (a, b))
    (h2 : (logicalLines t start stop).map Prod.snd = exprTrees mid)
    (h3 : formatted o pick unit (rootFor mid) = out) :
    formatSelection (formatSub o pick unit ending) t start stop = some (some ((a, b), (withEnding ending out).dropLast)) := by
  have hall : ((logicalLines t start stop).all fun (_, t) => isExpression t.kind) = true := by
    rw [List.all_eq_true]
    intro q hq
    exact isExpression_trees hg q.2 (by rw [← h2]; exact List.mem_map_of_mem hq)
  unfold formatSelection
  simp only [h1, hall, if_true, h2, formatSub_eq o pick unit ending hg hl, h3]

/-- The options of a default configuration. -/
def demoOpts : Opts := settingsOpts false Verif.Settings.Settings.default

/-- `{`, `x;y=1`, `}` -/
def blockText : List Byte := [123, 10, 120, 59, 121, 61, 49, 10, 125, 10]

def blockNode : TsNode := .mk .rRoot .none 0 10 [.mk .rBracedExpressions .none 0 9 [.mk .lCurly .none 0 1 [],
  .mk .rIdentifier .none 2 3 [], .mk .rBinaryExpression .none 4 7 [.mk .rIdentifier .none 4 5 [],
    .mk .equal .none 5 6 [], .mk .rDoubleValue .none 6 7 []], .mk .rCurly .none 8 9 []]]

def blockLast : Exprs := .cons (.binary {} (.atom {} .rIdentifier ⟨.ident, [⟨.whitespace, [59]⟩], [121], []⟩)
  ⟨.equal, [], [61], []⟩ (.atom {} .rDoubleValue ⟨.rDoubleLiteral, [], [49], []⟩)) .nil

def blockWith (mid : Exprs) : Exprs := .cons (.braced {} ⟨.lCurly, [], [123], []⟩
  (.cons (.atom {} .rIdentifier ⟨.ident, [⟨.newline, [10]⟩], [120], []⟩) (mid.append .nil))
  ⟨.rCurly, [⟨.newline, [10]⟩], [125], []⟩) .nil

def blockRoot : Root := ⟨{}, blockWith blockLast, ⟨.eof, [⟨.newline, [10]⟩], [], []⟩⟩

/-- The hypotheses of `C60_program_partial`. -/
theorem block_agrees : Agrees blockText blockNode blockRoot.es where
  shaped := by
    simp only [ShapedRoot, blockNode, ShapedList, Shaped, classify, and_true, true_and]
    refine ⟨_, [_, _], _, rfl, rfl, rfl, ?_⟩
    simp [TsNode.kind]
  stop := by decide
  tiled := by
    simp [blockNode, blockText, leaves, leavesList, classify, Tiled, between, isGapByte]
  written := by
    refine ⟨rfl, _, _, rfl, ⟨rfl, _, [_, _], _, rfl, ⟨rfl, .inl rfl, by decide⟩, ?_, ⟨rfl, .inl rfl, by decide⟩⟩, rfl⟩
    refine ⟨_, _, rfl, ⟨rfl, .inl ⟨.inl rfl, by decide⟩⟩, _, _, rfl, ⟨rfl, _, _, _, rfl,
      ⟨rfl, .inl ⟨.inl rfl, by decide⟩⟩, ⟨rfl, .inl rfl, by decide⟩, ⟨rfl, .inl ⟨.inl rfl, by decide⟩⟩⟩, rfl⟩
  comments := by decide
  strings := by simp [Joined, blockNode, leaves, leavesList, classify]

theorem block_parses : parse blockText blockNode false = some (fileTree blockRoot, false) :=
  parses_as (by decide +kernel)

example : 13 ∉ blockText ∧ readText blockText = some blockRoot.es.bare ∧
    (∀ d ∈ (rootFor blockLast).view.decos [] true, d.risky (rootFor blockLast).view = false) ∧
    SteadyL demoOpts (rootFor blockLast).attach.es ∧ (rootFor blockLast).attach.es.clear demoOpts = true ∧
    rootSuppressed demoOpts (rootFor blockLast).attach.es = false ∧ (rootFor blockLast).sourceComments = [] :=
  ⟨by decide, by rfl, by decide +kernel, ordinary_steadyL _ (by decide +kernel), by decide +kernel,
    by decide +kernel, by decide +kernel⟩

/-- The second statement of the block is selected: only this statement changes. -/
example (pick : Doc → List El) (hp : ChoosesAt 0 pick) :
    formatSelection (formatSub demoOpts pick [32, 32] .lf) (fileTree blockRoot) 4 4 =
      some (some ((4, 7), [121, 32, 60, 45, 32, 49])) ∧
    readText ([123, 10, 120, 59, 121, 32, 60, 45, 32, 49, 10, 125, 10]) = some (blockWith (.cons (.binary {} (.atom {} .rIdentifier
      ⟨.ident, [], [121], []⟩) ⟨.assign, [], [60, 45], []⟩ (.atom {} .rDoubleValue
      ⟨.rDoubleLiteral, [], [49], []⟩)) .nil)).bare := by
  refine ⟨?_, by rfl⟩
  have h := picked (o := demoOpts) hp (mid := blockLast) (unit := [32, 32]) (out := [121, 32, 60, 45, 32, 49, 10])
    (by decide +kernel) (by decide +kernel)
  exact selects (by decide +kernel) (by decide +kernel) (by decide +kernel) (by rfl) h

/-- `# fmt: skip file` before `x` -/
def skipText : List Byte := [35, 32, 102, 109, 116, 58, 32, 115, 107, 105, 112, 32, 102, 105, 108, 101, 10, 120, 10, 121, 10]

def skipNode : TsNode := .mk .rRoot .none 0 21 [.mk .comment .none 0 16 [], .mk .rIdentifier .none 17 18 [],
  .mk .rIdentifier .none 19 20 []]

def skipFirst : Exprs := .cons (.atom {} .rIdentifier ⟨.ident,
  [⟨.comment, [35, 32, 102, 109, 116, 58, 32, 115, 107, 105, 112, 32, 102, 105, 108, 101]⟩, ⟨.newline, [10]⟩], [120], []⟩) .nil
def skipSecond : Exprs := .cons (.atom {} .rIdentifier ⟨.ident, [⟨.newline, [10]⟩], [121], []⟩) .nil

def skipRoot : Root := ⟨{}, skipFirst.append skipSecond, ⟨.eof, [⟨.newline, [10]⟩], [], []⟩⟩

/-- C60 fails if the selection begins with the first statement of a file that is not to be formatted: the code is
printed as it is, without a line feed at the end, so that the character that is removed is a character of the code.
Here `x` disappears. -/
theorem C60_skip_file_cut (pick : Doc → List El) (hp : ChoosesAt 0 pick) :
    parse skipText skipNode false = some (fileTree skipRoot, false) ∧
    readText skipText = some (skipFirst.append skipSecond).bare ∧
    formatSelection (formatSub demoOpts pick [32, 32] .lf) (fileTree skipRoot) 17 17 =
      some (some ((0, 18), [35, 32, 102, 109, 116, 58, 32, 115, 107, 105, 112, 32, 102, 105, 108, 101, 10])) ∧
    readText (skipText.take 0 ++ [35, 32, 102, 109, 116, 58, 32, 115, 107, 105, 112, 32, 102, 105, 108, 101, 10] ++ skipText.drop 18) = some skipSecond.bare := by
  refine ⟨parses_as (by decide +kernel), by rfl, ?_, by rfl⟩
  have h := picked (o := demoOpts) hp (mid := skipFirst) (unit := [32, 32]) (out := [35, 32, 102, 109, 116, 58, 32, 115, 107, 105, 112, 32, 102, 105, 108, 101, 10, 120])
    (by decide +kernel) (by decide +kernel)
  exact selects (by decide +kernel) (by decide +kernel) (by decide +kernel) (by rfl) h

/-- `a$ # c`, `b;d` -/
def swallowText : List Byte := [97, 36, 32, 35, 32, 99, 10, 98, 59, 100, 10]

def swallowNode : TsNode := .mk .rRoot .none 0 11 [.mk .rExtractExpression .none 0 8 [
  .mk .rIdentifier .none 0 1 [], .mk .dollar .none 1 2 [], .mk .comment .none 3 6 [], .mk .rIdentifier .none 7 8 []],
  .mk .rIdentifier .none 9 10 []]

def swallowFirst : Exprs := .cons (.sel {} .extract (.atom {} .rIdentifier ⟨.ident, [], [97], []⟩)
  ⟨.dollar, [], [36], [⟨.whitespace, [32]⟩, ⟨.comment, [35, 32, 99]⟩]⟩
  (.atom {} .rIdentifier ⟨.ident, [⟨.newline, [10]⟩], [98], []⟩)) .nil
def swallowSecond : Exprs := .cons (.atom {} .rIdentifier ⟨.ident, [⟨.whitespace, [59]⟩], [100], []⟩) .nil

def swallowRoot : Root := ⟨{}, swallowFirst.append swallowSecond, ⟨.eof, [⟨.newline, [10]⟩], [], []⟩⟩

/-- C60 fails if a comment in the selection is moved to the end of a statement and another statement follows on the
same line, which is not selected: `a$b # c;d`. -/
theorem C60_comment_swallows (pick : Doc → List El) (hp : ChoosesAt 0 pick) :
    parse swallowText swallowNode false = some (fileTree swallowRoot, false) ∧
    readText swallowText = some (swallowFirst.append swallowSecond).bare ∧
    (∀ d ∈ (rootFor swallowFirst).view.decos [] true, d.risky (rootFor swallowFirst).view = false) ∧
    formatSelection (formatSub demoOpts pick [32, 32] .lf) (fileTree swallowRoot) 0 0 =
      some (some ((0, 8), [97, 36, 98, 32, 35, 32, 99])) ∧
    readText (swallowText.take 0 ++ [97, 36, 98, 32, 35, 32, 99] ++ swallowText.drop 8) = some swallowFirst.bare := by
  refine ⟨parses_as (by decide +kernel), by rfl, by decide +kernel, ?_, by rfl⟩
  have h := picked (o := demoOpts) hp (mid := swallowFirst) (unit := [32, 32]) (out := [97, 36, 98, 32, 35, 32, 99, 10])
    (by decide +kernel) (by decide +kernel)
  exact selects (by decide +kernel) (by decide +kernel) (by decide +kernel) (by rfl) h

end Verif.Whole
