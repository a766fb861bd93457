import Verif.Lemmas.Bytes
import Verif.Props.Cli
import Verif.Props.EndToEnd

/-!
# C59: the whole command

The models of the command, of the settings, of the parser and of the formatter together: what `air format` makes of
files that R accepts.
-/

namespace Verif.Whole
open Verif.Syntax Verif.Parser Verif.Format
open Verif.Lsp (RFormatOptions toFormatOptions)
open Verif.Settings (Settings)
open Verif.Discovery (buildResolver discoverSettings)

/-- R reads the text as the program `p`, and tree-sitter, without an error, as the tree `root` of `p`, whose
tokens and comments begin and end between characters. -/
structure Accepts (out : Outside) (source : String) (root : TsNode) (p : Exprs) : Prop where
  sitter : out.sitter (utf8 source) = (root, false)
  agrees : Agrees (utf8 source) root p
  reads : readText (lf (utf8 source)) = some p.bare
  ends : LineEnds (utf8 source) root
  cuts : ∀ l ∈ leaves root, Utf8 (between (utf8 source) l.start l.stop)

/-- The options for the rules; the text only determines the line ends, which the rules do not see. -/
def settingsOpts (windows : Bool) (s : Settings) : Opts := ruleOpts (toFormatOptions windows s [])

/-- The printer with the line width and the indentation of the settings. -/
def Outside.pick (out : Outside) (s : Settings) : Doc → List El := out.print s.lineWidth s.indentStyle s.indentWidth

/-! ## One file -/

theorem unit_ok (windows : Bool) (s : Settings) (src : List Char) (h : 1 ≤ s.indentWidth) :
    indentUnit (toFormatOptions windows s src) ≠ [] ∧
      ∀ b ∈ indentUnit (toFormatOptions windows s src), b = 9 ∨ b = 32 := by
  have h1 : indentUnit (toFormatOptions windows s src) = match s.indentStyle with
      | .tab => [9] | .space => List.replicate s.indentWidth 32 := rfl
  rw [h1]
  cases s.indentStyle with
  | tab => simp
  | space =>
    refine ⟨fun h0 => ?_, fun b hb => .inr (List.eq_of_mem_replicate hb)⟩
    have := congrArg List.length h0
    simp at this
    omega

theorem unit_no13 {unit : List Byte} (h : ∀ b ∈ unit, b = 9 ∨ b = 32) : 13 ∉ unit := fun hm => by
  rcases h _ hm with h | h <;> revert h <;> decide

theorem unit_utf8 {unit : List Byte} (h : ∀ b ∈ unit, b = 9 ∨ b = 32) : Utf8 unit := .ascii fun b hb => by
  rcases h b hb with rfl | rfl <;> decide

/-- What becomes of an accepted text. -/
theorem airFormat_eq {out : Outside} {s : Settings} {source : String} {root : TsNode} {x : Root}
    (h1 : out.sitter (utf8 source) = (root, false)) (h2 : seenRoot (utf8 source) root = some x) :
    airFormat out s source = ofUtf8 (withEnding (s.lineEnding.finalize out.windows source.toList)
      (formatted (settingsOpts out.windows s) (out.pick s) (indentUnit (toFormatOptions out.windows s source.toList)) x)) := by
  unfold airFormat
  simp only [h1, Bool.false_eq_true, if_false, h2, Option.bind_some]
  rfl

/-- C59: a text that R and tree-sitter accept is formatted: no step panics. R reads the new text as the same
program, up to `=` and `<-` and braces around bodies. Partial: comments at risky places, and code kept as it is
in unsteady places, are excluded, as in C54. -/
theorem C59_file_partial {out : Outside} {source : String} {root : TsNode} {p : Exprs} (h : Accepts out source root p)
    (s : Settings) (hw : 1 ≤ s.indentWidth) (hp : Chooses (out.pick s)) :
    ∃ x new, seenRoot (utf8 source) root = some x ∧ x.es.bare = p.bare ∧ airFormat out s source = some new ∧
      ((∀ d ∈ x.view.decos [] true, d.risky x.view = false) → SteadyL (settingsOpts out.windows s) x.attach.es →
        x.attach.es.clear (settingsOpts out.windows s) = true →
        ∃ es', (Becomess (settingsOpts out.windows s) true x.attach.es es' ∨
            rootSuppressed (settingsOpts out.windows s) x.attach.es = true ∧ es' = x.attach.es) ∧
          readText (lf (utf8 new)) = some es'.bare) := by
  obtain ⟨x, hx, hseen⟩ := parsed_seen h.agrees h.reads h.ends
  obtain ⟨-, hbare, hsp, hg, hf⟩ := parsed_program h.agrees h.reads h.ends hx
  obtain ⟨hu, hu'⟩ := unit_ok out.windows s source.toList hw
  obtain ⟨cs, hcs⟩ := (hx.utf8 h.agrees h.ends (settingsOpts out.windows s) hp (unit_utf8 hu') h.cuts).withEnding
    (s.lineEnding.finalize out.windows source.toList)
  have hnew := airFormat_eq (s := s) h.sitter hseen
  rw [hcs, ofUtf8_encode] at hnew
  refine ⟨x, _, hseen, hbare, hnew, fun c1 c2 c3 => ?_⟩
  have hn : utf8 (String.ofList cs) = _ := (ofUtf8_utf8 (ofUtf8_encode cs)).trans hcs.symm
  rw [hn, lf_withEnding (hx.no13 h.agrees h.ends _ hp (unit_no13 hu'))]
  have hpr := hp _ (Doc.solid.prints (fmtRoot_solid (settingsOpts out.windows s) x.attach) .expanded 0)
  have hL := (prints_lays _ _ _ _ hpr).2.1 rfl
  exact (C54_reads_text_partial _ x _ _ _ hsp hg hf c1 c2 c3 hL (respelled_unit hu hu' _ {})).2

/-- C59: formatting the formatted text changes nothing, whatever the line ends are (also if they are inferred
from the text). Partial: texts without comments and without functions listed in the settings, with persistent
line breaks, and printers with consistent choices, as in C56. -/
theorem C59_again_partial {out : Outside} {source new : String} {root root' : TsNode} {p p' : Exprs}
    (h : Accepts out source root p) (s : Settings) (hw : 1 ≤ s.indentWidth) (hp : Chooses (out.pick s))
    (hk : Consistent (out.pick s)) (hper : s.persistentLineBreaks = .respect)
    (hcom : ∀ l ∈ leaves root, l.isComment = false)
    (hord : ∀ x, seenRoot (utf8 source) root = some x → x.attach.es.ordinary (settingsOpts out.windows s) = true ∧
      x.attach.es.clear (settingsOpts out.windows s) = true)
    (hf : airFormat out s source = some new) (h' : Accepts out new root' p') : airFormat out s new = some new := by
  obtain ⟨hu, hu'⟩ := unit_ok out.windows s source.toList hw
  have hper' : (settingsOpts out.windows s).persistent = true := by
    show (s.persistentLineBreaks == .respect) = true
    rw [hper]; rfl
  obtain ⟨x, hseen, hx⟩ := C57_idempotent_partial (settingsOpts out.windows s) (out.pick s) hp hk hper' _ hu hu'
    h.agrees h.reads h.ends hcom
  obtain ⟨ho, hc⟩ := hord x hseen
  obtain ⟨h13, -, hagain⟩ := hx ho hc
  have hnew := airFormat_eq (s := s) h.sitter hseen
  rw [hf] at hnew
  have hnew := ofUtf8_utf8 hnew.symm
  obtain ⟨y, hy, he⟩ := hagain (utf8 new) root' p' (by rw [hnew, lf_withEnding h13]) h'.agrees h'.reads h'.ends
  rw [airFormat_eq (s := s) h'.sitter hy]
  have hunit : indentUnit (toFormatOptions out.windows s new.toList) =
      indentUnit (toFormatOptions out.windows s source.toList) := rfl
  rw [hunit, he, withEnding_again h13 _ _ _ hnew, ← hnew, utf8_encode, ofUtf8_encode, String.ofList_toList]

/-! ## A run of the command -/

theorem add_values {T : Type} {r : Resolver.Resolver T} {p : Resolver.Path} {v : T} {P : T → Prop}
    (h : ∀ i ∈ r.items, P i.value) (hv : P v) : ∀ i ∈ (Resolver.add r p v).1.items, P i.value := by
  intro i hi
  unfold Resolver.add at hi
  split at hi
  · split at hi
    · rcases List.mem_or_eq_of_mem_set hi with hi | rfl
      · exact h i hi
      · exact hv
    · exact h i hi
  · rcases List.eq_or_mem_of_mem_insertIdx hi with rfl | hi
    · exact hv
    · exact h i hi

theorem add_fallback {T : Type} (r : Resolver.Resolver T) (p : Resolver.Path) (v : T) :
    (Resolver.add r p v).1.fallback = r.fallback := by
  unfold Resolver.add
  split
  · split <;> rfl
  · rfl

/-- Settings that are found or are the defaults. -/
theorem resolved {P : Settings → Prop} (found : List (Resolver.Path × Settings)) (h : ∀ e ∈ found, P e.2)
    (hd : P Settings.default) (p : Resolver.Path) : P (Resolver.resolveOrFallback (buildResolver found) p) := by
  have key : ∀ (found : List (Resolver.Path × Settings)) (r : Resolver.Resolver Settings), (∀ e ∈ found, P e.2) →
      (∀ i ∈ r.items, P i.value) → P r.fallback →
      (∀ i ∈ (found.foldl (fun r d => (Resolver.add r d.1 d.2).1) r).items, P i.value) ∧
      P (found.foldl (fun r d => (Resolver.add r d.1 d.2).1) r).fallback := by
    intro found
    induction found with
    | nil => intro r _ h1 h2; exact ⟨h1, h2⟩
    | cons e found ih =>
      intro r h0 h1 h2
      refine ih _ (fun e he => h0 e (List.mem_cons_of_mem _ he)) (add_values h1 (h0 e (by simp))) ?_
      rw [add_fallback]; exact h2
  obtain ⟨h1, h2⟩ := key found (Resolver.new Settings.default) h nofun hd
  unfold Resolver.resolveOrFallback
  split
  · rename_i item hi
    exact h1 item (List.mem_reverse.1 (List.mem_of_find?_eq_some hi))
  · exact h2

theorem deFormat_width {v : Settings.Toml} {o : Settings.FormatOptions} (h : Settings.deFormat v = some o) :
    ∀ n, o.indentWidth = some n → 1 ≤ n := by
  unfold Settings.deFormat at h
  split at h
  · split at h
    · simp only [Option.bind_eq_bind, Option.bind_eq_some_iff, Option.some.injEq] at h
      obtain ⟨_, -, w, hw, _, -, _, -, _, -, _, -, _, -, _, -, _, -, _, -, _, -, rfl⟩ := h
      rintro n rfl
      unfold Settings.field at hw
      split at hw
      · cases hw
      · simp only [Option.map_eq_some_iff, Option.some.injEq] at hw
        obtain ⟨m, hm, rfl⟩ := hw
        exact (Settings.deIndentWidth_iff.1 hm).2.1
    · cases h
  · cases h

theorem load_width {compile : Resolver.Path → List String → Option FilePatterns.FilePatterns}
    {doc : List (String × Settings.Toml)} {root : Resolver.Path} {s : Settings}
    (h : Settings.load compile doc root = some s) : 1 ≤ s.indentWidth := by
  simp only [Settings.load, Option.bind_eq_some_iff] at h
  obtain ⟨o, h1, h2⟩ := h
  have h3 : s.indentWidth = (o.getD {}).indentWidth.getD 2 := by
    simp only [Settings.intoSettings, Option.map_eq_some_iff] at h2
    obtain ⟨e, -, rfl⟩ := h2
    rfl
  rw [h3]
  unfold Settings.deserialize at h1
  split at h1
  · unfold Settings.field at h1
    split at h1
    · cases h1; decide
    · simp only [Option.map_eq_some_iff] at h1
      obtain ⟨f, hf, rfl⟩ := h1
      have := deFormat_width hf
      show 1 ≤ f.indentWidth.getD 2
      cases hw : f.indentWidth with
      | none => decide
      | some n => exact this n hw
  · cases h1

/-- Configured indentation is not empty. -/
theorem processes_width {env : Cli.Env} {c : Cli.Command} {p : Resolver.Path} {s : Settings}
    (h : Cli.Processes env c p s) : 1 ≤ s.indentWidth := by
  obtain ⟨settings, found, hd, -, -, rfl⟩ := h
  refine resolved (P := fun s => 1 ≤ s.indentWidth) settings ?_ (by decide) p
  intro e he
  have h1 := (((Discovery.C16_discovered env.compile env.disk c.paths).2 settings hd).2 e.1 e.2).1 he
  have h2 := h1.2
  unfold Discovery.SettingsIn at h2
  split at h2 <;>
  · obtain ⟨doc, -, h3⟩ := Option.bind_eq_some_iff.1 h2
    exact load_width h3

/-- C59: in a run of `air format` that ends well, in which no file is named twice, R reads each file of the run whose
old text R and tree-sitter accept as the same program as before, up to `=` and `<-` and braces around bodies, as the
settings for this file say. Partial: as `C59_file_partial`. -/
theorem C59_run_partial (out : Outside) (env : Cli.Env) (henv : env.fmt = airFormat out) (c : Cli.Command)
    (hc : c.check = false) (hs : c.stdinFilePath = none) (w : Cli.World)
    (hnames : ∀ p ∈ c.paths, Discovery.DistinctNames (env.tree p))
    (hroots : c.paths.Pairwise fun a b => ¬ a <+: b ∧ ¬ b <+: a) (o : Cli.Outcome) (h : Cli.Run env c w o)
    (hok : o.status = .success) (f : Resolver.Path) (s : Settings) (hf : Cli.Processes env c f s)
    (hp : Chooses (out.pick s)) :
    ∃ old new, w f = some old ∧ o.files f = some new ∧ airFormat out s old = some new ∧
      ∀ root p, Accepts out old root p → ∃ x, seenRoot (utf8 old) root = some x ∧ x.es.bare = p.bare ∧
        ((∀ d ∈ x.view.decos [] true, d.risky x.view = false) → SteadyL (settingsOpts out.windows s) x.attach.es →
          x.attach.es.clear (settingsOpts out.windows s) = true →
          ∃ es', (Becomess (settingsOpts out.windows s) true x.attach.es es' ∨
              rootSuppressed (settingsOpts out.windows s) x.attach.es = true ∧ es' = x.attach.es) ∧
            readText (lf (utf8 new)) = some es'.bare) := by
  obtain ⟨old, new, h1, h2, h3⟩ := Cli.C20_run_formats env c hc hs w hnames hroots o h hok f s hf
  rw [henv] at h2
  refine ⟨old, new, h1, h3, h2, fun root p ha => ?_⟩
  obtain ⟨x, new', g1, g2, g3, g4⟩ := C59_file_partial ha s (processes_width hf) hp
  rw [h2] at g3; cases g3
  exact ⟨x, g1, g2, g4⟩

/-- Files for which formatting is known to be idempotent. -/
structure Settled (out : Outside) (s : Settings) (old : String) : Prop where
  accepted : ∃ root p, Accepts out old root p ∧ (∀ l ∈ leaves root, l.isComment = false) ∧
    ∀ x, seenRoot (utf8 old) root = some x → x.attach.es.ordinary (settingsOpts out.windows s) = true ∧
      x.attach.es.clear (settingsOpts out.windows s) = true
  persistent : s.persistentLineBreaks = .respect
  chooses : Chooses (out.pick s)
  consistent : Consistent (out.pick s)
  again : ∀ new, airFormat out s old = some new → ∃ root p, Accepts out new root p

/-- C59: after a run of `air format` that ends well, a second run (whatever its schedule) changes nothing and ends well, and
`air format --check` ends well and reports nothing; the old texts need not be formatted and may have any line ends. Partial:
the files have no comments and no functions listed in the settings, with persistent line breaks, as in C56. -/
theorem C59_second_run_partial (out : Outside) (env : Cli.Env) (henv : env.fmt = airFormat out) (c : Cli.Command)
    (hc : c.check = false) (hs : c.stdinFilePath = none) (w : Cli.World)
    (hset : ∀ f s old, Cli.Processes env c f s → w f = some old → Settled out s old)
    (o : Cli.Outcome) (h : Cli.Run env c w o) (hok : o.status = .success) :
    (∀ o', Cli.Run env c o.files o' → o'.files = o.files ∧ o'.status = .success) ∧
    (∀ o', Cli.Run env { c with check := true } o.files o' →
      o'.files = o.files ∧ o'.status = .success ∧ o'.reported = []) := by
  refine (Cli.C21_converges env c hc hs w ?_ o h hok).2
  intro f s old new hf hw hn
  rw [henv] at hn ⊢
  have hse := hset f s old hf hw
  obtain ⟨root, p, ha, hcom, hord⟩ := hse.accepted
  obtain ⟨root', p', ha'⟩ := hse.again new hn
  exact C59_again_partial ha s (processes_width hf) hse.chooses hse.consistent hse.persistent hcom hord hn ha'

/-! ## A concrete case: a file with `x;y` -/

/-- The tree for `x;y`, and for the formatted text with `x` and `y` on two lines. -/
def twoNames : TsNode := .mk .rRoot .none 0 4 [.mk .rIdentifier .none 0 1 [], .mk .rIdentifier .none 2 3 []]

def twoProgram : Exprs :=
  .cons (.atom {} .rIdentifier ⟨.ident, [], [120], []⟩) (.cons (.atom {} .rIdentifier ⟨.ident, [], [121], []⟩) .nil)

/-- The trivia between `x` and `y`. -/
def twoRoot (q : Piece) : Root :=
  ⟨{}, .cons (.atom {} .rIdentifier ⟨.ident, [], [120], []⟩) (.cons (.atom {} .rIdentifier ⟨.ident, [q], [121], []⟩) .nil),
    ⟨.eof, [⟨.newline, [10]⟩], [], []⟩⟩

/-- tree-sitter for these two texts, and some printer. -/
def twoOutside (pick : Doc → List El) : Outside := ⟨false, fun _ => (twoNames, false), fun _ _ _ => pick⟩

theorem two_agrees {text : List Byte} (h : text = [120, 59, 121, 10] ∨ text = [120, 10, 121, 10]) :
    Agrees text twoNames twoProgram where
  shaped := by simp [ShapedRoot, twoNames, ShapedList, Shaped, classify]
  stop := by rcases h with rfl | rfl <;> rfl
  tiled := by
    rcases h with rfl | rfl <;> simp [twoNames, leaves, leavesList, classify, Tiled, between, isGapByte]
  written := by
    rcases h with rfl | rfl <;>
    exact ⟨rfl, _, _, rfl, ⟨rfl, .inl ⟨.inl rfl, by decide⟩⟩, _, _, rfl, ⟨rfl, .inl ⟨.inl rfl, by decide⟩⟩, rfl⟩
  comments := by rcases h with rfl | rfl <;> decide
  strings := by simp [Joined, twoNames, leaves, leavesList, classify]

theorem two_accepts (pick : Doc → List El) {source : String} (h : source = "x;y\n" ∨ source = "x\ny\n") :
    Accepts (twoOutside pick) source twoNames twoProgram := by
  have e : utf8 source = [120, 59, 121, 10] ∨ utf8 source = [120, 10, 121, 10] := by
    rcases h with rfl | rfl
    · exact .inl (by decide)
    · exact .inr (by decide)
  have h13 : 13 ∉ utf8 source := by rcases e with e | e <;> rw [e] <;> decide
  refine ⟨rfl, two_agrees e, ?_, (C57_unix h13).1, fun l hl => .ascii fun b hb => ?_⟩
  · rw [lf_no13 h13]
    rcases e with e | e <;> rw [e] <;> rfl
  · have hb : b ∈ utf8 source := List.mem_of_mem_drop (List.mem_of_mem_take hb)
    have hall : ∀ b ∈ utf8 source, b.toNat < 128 := by rcases e with e | e <;> rw [e] <;> decide
    exact hall b hb

theorem two_seen : seenRoot (utf8 "x;y\n") twoNames = some (twoRoot ⟨.whitespace, [59]⟩) := by
  have h : utf8 "x;y\n" = [120, 59, 121, 10] := by decide
  have h1 : parse [120, 59, 121, 10] twoNames false = some (fileTree (twoRoot ⟨.whitespace, [59]⟩), false) := by rfl
  unfold seenRoot
  rw [h, h1]
  rfl

def twoEls : List El := lay true false false .expanded 0
  (fmtRoot (settingsOpts false Settings.default) (twoRoot ⟨.whitespace, [59]⟩).attach)

theorem two_formats (pick : Doc → List El) (hp : Chooses pick) :
    airFormat (twoOutside pick) Settings.default "x;y\n" = some "x\ny\n" := by
  have hpr := hp _ (Doc.solid.prints (fmtRoot_solid (settingsOpts false Settings.default)
    (twoRoot ⟨.whitespace, [59]⟩).attach) .expanded 0)
  have h1 := (mem_layouts (by decide +kernel)).2 hpr
  have h2 : ∀ w ∈ layouts .expanded 0 (fmtRoot (settingsOpts false Settings.default)
      (twoRoot ⟨.whitespace, [59]⟩).attach), w = twoEls := by decide +kernel
  rw [airFormat_eq (root := twoNames) rfl two_seen]
  unfold formatted
  have h3 : (twoOutside pick).pick Settings.default = pick := rfl
  have h4 : (twoOutside pick).windows = false := rfl
  rw [h3, h4, h2 _ h1]
  have h5 : withEnding (Settings.default.lineEnding.finalize false "x;y\n".toList) (render (printUnit
      (indentUnit (toFormatOptions false Settings.default "x;y\n".toList)) {} twoEls)) = LineEnding.encode ['x', '\n', 'y', '\n'] := by
    decide +kernel
  rw [h5, ofUtf8_encode]

theorem two_settled (pick : Doc → List El) (hp : Chooses pick) (hk : Consistent pick) :
    Settled (twoOutside pick) Settings.default "x;y\n" where
  accepted := ⟨twoNames, twoProgram, two_accepts pick (.inl rfl), by decide, fun x hx => by
    rw [two_seen] at hx; cases hx; exact (by decide +kernel :
      (twoRoot ⟨.whitespace, [59]⟩).attach.es.ordinary (settingsOpts false Settings.default) = true ∧
      (twoRoot ⟨.whitespace, [59]⟩).attach.es.clear (settingsOpts false Settings.default) = true)⟩
  persistent := rfl
  chooses := hp
  consistent := hk
  again new hn := by
    rw [two_formats pick hp] at hn; cases hn
    exact ⟨twoNames, twoProgram, two_accepts pick (.inr rfl)⟩

/-- The hypotheses of `C59_run_partial` and `C59_second_run_partial` are met by a run on this file, which is
changed by the run. -/
example : ∃ out env w o, env.fmt = airFormat out ∧ Cli.Run env { paths := [["/", "a.R"]] } w o ∧ o.status = .success ∧
    (∀ f s old, Cli.Processes env { paths := [["/", "a.R"]] } f s → w f = some old → Settled out s old) ∧
    w ["/", "a.R"] = some "x;y\n" ∧ o.files ["/", "a.R"] = some "x\ny\n" := by
  obtain ⟨pick, hp, hk⟩ := C56_printer_exists
  let env : Cli.Env := { Cli.exEnv with fmt := airFormat (twoOutside pick) }
  let w : Cli.World := fun _ => some "x;y\n"
  have hdisc : discoverSettings env.compile env.disk [["/", "a.R"]] = some [] := by rfl
  have hres : ∀ f, Resolver.resolveOrFallback (buildResolver []) f = Settings.default := fun _ => rfl
  have hset : ∀ f s old, Cli.Processes env { paths := [["/", "a.R"]] } f s → w f = some old →
      Settled (twoOutside pick) s old := by
    rintro f s old ⟨settings, found, hd, -, -, rfl⟩ hw
    rw [show discoverSettings _ _ _ = _ from hdisc] at hd; cases hd
    cases hw
    rw [hres]; exact two_settled pick hp hk
  obtain ⟨o, h⟩ := Cli.C19_some_outcome env { paths := [["/", "a.R"]] } w
  refine ⟨twoOutside pick, env, w, o, rfl, h, ?_⟩
  suffices o.status = .success ∧ o.files ["/", "a.R"] = some "x\ny\n" from ⟨this.1, hset, rfl, this.2⟩
  cases h with
  | inconsistent h => exact absurd rfl h
  | stdinSettings q h => cases h
  | stdin q s h => cases h
  | pathsSettings _ h => rw [show discoverSettings _ _ _ = _ from hdisc] at h; cases h
  | paths s found _ hd hf =>
    rw [show discoverSettings _ _ _ = _ from hdisc] at hd; cases hd
    have hp' := Discovery.discover_perm _ _ _ _ hf
    have hv : Discovery.collect (buildResolver []) .matched .matched (fun _ _ => false) ["/", "a.R"] 0 .file =
        [.file ["/", "a.R"]] := by
      rw [Discovery.collect]; decide +kernel
    have hp' : found.Perm [.file ["/", "a.R"]] := by
      simpa [Cli.Command.exclude, Cli.Command.incl, env, Cli.exEnv, hv, List.flatMap_cons] using hp'
    rw [List.perm_singleton] at hp'
    subst hp'
    have hfm : airFormat (twoOutside pick) (Resolver.resolveOrFallback (buildResolver []) ["/", "a.R"]) "x;y\n" =
        some "x\ny\n" := by
      rw [hres]; exact two_formats pick hp
    have hne : ("x\ny\n" : String) ≠ "x;y\n" := by decide
    have hpath : Cli.formatPath env.fmt w ["/", "a.R"] (Resolver.resolveOrFallback (buildResolver []) ["/", "a.R"]) =
        some (.changed "x\ny\n") := by
      have hw : w ["/", "a.R"] = some "x;y\n" := rfl
      have hf : env.fmt = airFormat (twoOutside pick) := rfl
      simp [Cli.formatPath, Cli.formatSource, hw, hf, hfm]
    have hwr : Cli.formatPathsWrite env.fmt env.outcome (buildResolver []) [.file ["/", "a.R"]] w =
        (w.set ["/", "a.R"] (some "x\ny\n"), []) := by
      have ho : env.outcome ["/", "a.R"] = .ok := rfl
      simp [Cli.formatPathsWrite, hpath, Cli.writePath, ho]
    have hm : Cli.Command.mode { paths := [["/", "a.R"]] } = .write := rfl
    rw [hm, Cli.formatPaths, hwr]
    exact ⟨rfl, by simp [Cli.World.set]⟩

end Verif.Whole
