import Verif.Props.Config

/-!
# C27: options used for formatting in the editor; C28: the answer to a formatting request
-/

namespace Verif.Lsp

open Verif.TextChanges Verif.LineEnding Verif.LineIndex
open Verif.Resolver (Path)
open Verif.Settings (Settings IndentStyle)

variable {T : Tools}

/-! ## Specification -/

/-- The options to format `text` with: those of the `air.toml` that governs the document, otherwise
those the editor sends with the request and the defaults for the rest. -/
inductive Effective (windows : Bool) (o : FormattingOptions) (text : List Char) :
    WorkspaceSettings → RFormatOptions → Prop
  | toml (t : Settings) : Effective windows o text (.toml t)
      { indentStyle := t.indentStyle, indentWidth := t.indentWidth, lineWidth := t.lineWidth
        lineEnding := t.lineEnding.finalize windows text
        persistentLineBreaks := t.persistentLineBreaks, assignmentStyle := t.assignmentStyle
        skip := t.skip, table := t.table }
  | editor (x : Settings) : Effective windows o text (.fallback x)
      { indentStyle := if o.insertSpaces then .space else .tab
        indentWidth := widthOrDefault o.tabSize, lineWidth := 80
        lineEnding := Setting.auto.finalize windows text
        persistentLineBreaks := .respect, assignmentStyle := .arrow
        skip := none, table := some ["fcase", "tribble"] }

/-- An exclude rule of the settings matches the document's path or one of its parents. -/
def Refused (w : WorkspaceSettings) (u : Url) : Prop :=
  ∃ path, u.filePath = some path ∧
    Discovery.anyExcludeMatchedPathOrAnyParents path false w.settings = some true

/-- Cells of notebooks have no final newline. -/
def finalText (u : Url) (formatted : List Char) : List Char :=
  if u.scheme = "vscode-notebook-cell" ∧ formatted.getLast? = some '\n' then formatted.dropLast
  else formatted

/-- The contract of the diff library: its chunks re-assemble to both texts. -/
def DiffOk (T : Tools) : Prop :=
  ∀ old new, (T.diff old new).flatMap TextEdit.Chunk.leftText = old ∧
    (T.diff old new).flatMap TextEdit.Chunk.rightText = new

/-! ## Invariants -/

theorem mem_of_lookup {docs : List (Url × Document T)} {u : Url} {d : Document T}
    (h : docs.lookup u = some d) : (u, d) ∈ docs := by
  induction docs with
  | nil => cases h
  | cons e docs ih =>
    obtain ⟨v, d'⟩ := e
    rw [List.lookup_cons] at h
    split at h
    · rename_i hv
      simp only [beq_iff_eq] at hv
      cases h
      rw [hv]
      exact List.mem_cons_self
    · exact List.mem_cons_of_mem _ (ih h)

def NoLineWidth (docs : List (Url × Document T)) : Prop := ∀ e ∈ docs, e.2.settings.lineWidth = none

theorem noLineWidth_modify {docs : List (Url × Document T)} (h : NoLineWidth docs) (u : Url)
    {f : Document T → Document T}
    (hf : ∀ d, d.settings.lineWidth = none → (f d).settings.lineWidth = none) :
    NoLineWidth (modifyDoc docs u f) := by
  intro e he
  simp only [modifyDoc, List.mem_map] at he
  obtain ⟨e', he', rfl⟩ := he
  split
  · exact hf _ (h e' he')
  · exact h e' he'

theorem documentConfig_lineWidth {items : List Json} {c : DocSettings}
    (h : documentConfig items = some c) : c.lineWidth = none := by
  simp only [documentConfig, Option.bind_eq_bind, Option.bind_eq_some_iff, Option.some.injEq] at h
  obtain ⟨a, _, b, _, d, _, rfl⟩ := h
  unfold fromVsc
  split <;> rfl

theorem noLineWidth_updateDocuments (us : List Url) : ∀ (items : List Json)
    (docs : List (Url × Document T)), NoLineWidth docs →
    NoLineWidth (updateDocumentsConfig us items docs).1 := by
  induction us with
  | nil => intro _ _ h; exact h
  | cons u us ih =>
    intro items docs h
    unfold updateDocumentsConfig
    split
    · exact h
    · rename_i c hc
      split
      · exact h
      · exact ih _ _ (noLineWidth_modify h u fun _ _ => documentConfig_lineWidth hc)

theorem noLineWidth_updateConfig (env : Env) (uris : List Url) (s : State T)
    (h : NoLineWidth s.docs) : NoLineWidth (updateConfig env uris s).1.docs := by
  unfold updateConfig
  split
  · exact h
  · simp only
    split
    · exact h
    · rename_i configs _
      split
      · exact h
      · have h1 := noLineWidth_updateDocuments uris ((configs.drop 1).take (3 * uris.length)) s.docs h
        split
        · rename_i hd; rw [hd] at h1; exact h1
        · rename_i docs hd
          rw [hd] at h1
          have h2 := (updateGlobal_spec env ((configs.drop 1).drop (3 * uris.length)) { s with docs }).1
          intro e he
          rw [h2] at he
          exact h1 e he

theorem noLineWidth_runs {es : List (Env × Event)} {s : State T} {rs : List (Nat × Answer Response)}
    {os : List Out} (h : Runs start es s rs os) : NoLineWidth s.docs := by
  induction h with
  | nil => intro e he; cases he
  | @snoc es s' rs os env e t hs h ih =>
    cases e with
    | kernel => cases h; exact ih
    | notification n =>
      simp only [handleEvent, Option.map_eq_some_iff] at h
      obtain ⟨⟨s2, ok, outs⟩, h, rfl⟩ := h
      cases n with
      | initialized => obtain rfl := initialized_state h; exact ih
      | didChangeWorkspaceFolders added removed => cases h; exact ih
      | didChangeConfiguration =>
        simp only [handleNotification, Option.some.injEq] at h
        have h1 := noLineWidth_updateConfig env (env.order (s'.docs.map Prod.fst)) s' ih
        rw [h] at h1
        exact h1
      | didChangeWatchedFiles uris => cases h; exact ih
      | didSave u => cases h; exact ih
      | didClose u =>
        simp only [handleNotification, didClose] at h
        split at h
        · cases h; exact ih
        · cases h
          intro e he
          exact ih e (List.mem_filter.1 he).1
      | didChange u v cs =>
        simp only [handleNotification, didChange] at h
        split at h
        · cases h; exact ih
        · rename_i d hd
          simp only [Option.map_eq_some_iff] at h
          obtain ⟨d', hd', h⟩ := h
          cases h
          refine noLineWidth_modify ih u (f := fun _ => d') fun _ _ => ?_
          unfold Document.onDidChange at hd'
          split at hd'
          · cases hd'
          · simp only [Option.map_eq_some_iff] at hd'
            obtain ⟨_, _, rfl⟩ := hd'
            have := mem_of_lookup hd
            exact ih _ this
      | didOpen u v text =>
        simp only [handleNotification, didOpen, Option.map_eq_some_iff] at h
        obtain ⟨d, hd, h⟩ := h
        have h0 : NoLineWidth (insertDoc s'.docs u d) := by
          intro e he
          rcases List.mem_cons.1 he with rfl | he
          · unfold Document.new at hd
            simp only [Option.map_eq_some_iff] at hd
            obtain ⟨_, _, rfl⟩ := hd
            rfl
          · exact ih e (List.mem_filter.1 he).1
        have h1 := noLineWidth_updateConfig env [u] { s' with docs := insertDoc s'.docs u d } h0
        split at h
        · rename_i hx; rw [hx] at h1; cases h; exact h1
        · rename_i hx; rw [hx] at h1; cases h; exact h1
    | request id r =>
      simp only [handleEvent, Option.map_eq_some_iff] at h
      obtain ⟨⟨s2, a⟩, h, rfl⟩ := h
      cases r with
      | «initialize» folders c =>
        simp only [handleRequest, handleInitialize] at h
        split at h
        · cases h
        · cases h; exact ih
      | shutdown => cases h; exact ih
      | viewFile u k => cases h; exact ih
      | formatting u o =>
        simp only [handleRequest, Option.map_eq_some_iff] at h
        obtain ⟨_, _, h⟩ := h
        cases h
        exact noLineWidth_modify ih u (f := fun d => { d with settings := { d.settings with
          indentStyle := some (indentStyleFromVsc o.insertSpaces)
          indentWidth := some (indentWidthFromUsize o.tabSize) } }) fun _ h => h
      | rangeFormatting u r o =>
        simp only [handleRequest, Option.map_eq_some_iff] at h
        obtain ⟨_, _, h⟩ := h
        cases h
        exact noLineWidth_modify ih u (f := fun d => { d with settings := { d.settings with
          indentStyle := some (indentStyleFromVsc o.insertSpaces)
          indentWidth := some (indentWidthFromUsize o.tabSize) } }) fun _ h => h

theorem settingsForPath_fallback {w : Workspaces} {path : Path} {x : Settings}
    (h : settingsForPath w path = .fallback x) : x = w.fallback.fallback := by
  unfold settingsForPath at h
  split at h
  · cases h; rfl
  · cases h

theorem settingsForUrl_fallback {w : Workspaces} {u : Url} {x : Settings}
    (h : settingsForUrl w u = .fallback x) : x = w.fallback.fallback := by
  unfold settingsForUrl at h
  split at h
  · exact settingsForPath_fallback h
  · split at h
    · split at h
      · exact settingsForPath_fallback h
      · cases h; rfl
    · cases h; rfl

theorem fallback_default {es : List (Env × Event)} {s : State T} {rs : List (Nat × Answer Response)}
    {os : List Out} (h : Runs start es s rs os) {u : Url} {x : Settings}
    (hx : settingsForUrl s.workspaces u = .fallback x) : x = Settings.default := by
  rw [settingsForUrl_fallback hx, C26_server h]
  obtain ⟨m, _, h2⟩ := wsRun_rep (compile := T.compile) (wsHistory es) noWorkspaces_rep
  rw [h2.fallback]
  rfl

theorem mergeOptions (windows : Bool) (o : FormattingOptions) (text : List Char) :
    DocSettings.merge (Lsp.toFormatOptions windows Settings.default text)
      { indentStyle := some (indentStyleFromVsc o.insertSpaces)
        indentWidth := some (indentWidthFromUsize o.tabSize) } =
      { indentStyle := if o.insertSpaces then .space else .tab
        indentWidth := widthOrDefault o.tabSize, lineWidth := 80
        lineEnding := Setting.auto.finalize windows text
        persistentLineBreaks := .respect, assignmentStyle := .arrow
        skip := none, table := some ["fcase", "tribble"] } := by
  have h : Settings.defaultTable = ["fcase", "tribble"] := by decide
  simp only [DocSettings.merge, Lsp.toFormatOptions, Settings.default, indentWidthFromUsize_eq,
    indentStyleFromVsc, h]

/-- C27: each option provided by the editor overrides the corresponding value, an absent one leaves
it, and no other option is affected. -/
theorem C27_merge (o : RFormatOptions) (d : DocSettings) :
    d.merge o = { o with
      indentStyle := d.indentStyle.getD o.indentStyle
      indentWidth := d.indentWidth.getD o.indentWidth
      lineWidth := d.lineWidth.getD o.lineWidth } := by
  obtain ⟨a, b, c⟩ := d
  cases a <;> cases b <;> cases c <;> rfl

/-- The document a formatting request works on and the options it uses. -/
theorem options_of_request {es : List (Env × Event)} {s : State T} {rs : List (Nat × Answer Response)}
    {os : List Out} (h : Runs start es s rs os) (u : Url) (d : Document T) (hd : s.doc u = some d)
    (o : FormattingOptions) :
    ∃ d2, (didChangeFormattingOptions u o s).doc u = some d2 ∧ d2.core = d.core ∧
      Effective T.windows o d.contents (settingsForUrl s.workspaces u)
        ((settingsForUrl s.workspaces u).toFormatOptions T.windows d2.contents d2.settings) := by
  have hlw : d.settings.lineWidth = none :=
    noLineWidth_runs h (u, d) (mem_of_lookup hd)
  refine ⟨{ d with settings := { d.settings with
          indentStyle := some (indentStyleFromVsc o.insertSpaces)
          indentWidth := some (indentWidthFromUsize o.tabSize) } }, ?_, rfl, ?_⟩
  · simp only [didChangeFormattingOptions, State.doc, lookup_modify, if_true,
      show s.docs.lookup u = some d from hd, Option.map_some]
  · cases hw : settingsForUrl s.workspaces u with
    | toml t => exact .toml t
    | fallback x =>
      obtain rfl := fallback_default h hw
      simp only [WorkspaceSettings.toFormatOptions, hlw]
      rw [mergeOptions]
      exact .editor _

/-! ## C27 -/

/-- C27: formatting an open document at any time. The formatter is called with the options of the
governing `air.toml`, whatever the editor says; without one with the options of the request, the
defaults for the rest. Nothing else about the client's options has an influence on the answer. -/
theorem C27_options {es : List (Env × Event)} {s : State T} {rs : List (Nat × Answer Response)}
    {os : List Out} (h : Runs start es s rs os) (u : Url) (d : Document T) (hd : s.doc u = some d)
    (o : FormattingOptions) (hx : excludedFromFormatting (settingsForUrl s.workspaces u) u = some false)
    (he : T.hasError (T.parse d.contents) = false) :
    ∃ opts, Effective T.windows o d.contents (settingsForUrl s.workspaces u) opts ∧
      ∀ env, (handleRequest env (.formatting u o) s).map Prod.snd =
        some (match T.format opts (T.parse d.contents) with
          | none => none
          | some f =>
            if f = d.contents then some (.edits none)
            else (replaceAllEdit d.encoding (LineIndex.new d.contents) d.endings
              (T.diff d.contents (finalText u f))).map fun es => .edits (some es)) := by
  obtain ⟨d2, h1, h2, h3⟩ := options_of_request h u d hd o
  refine ⟨_, h3, fun env => ?_⟩
  obtain ⟨hi, hp⟩ := C50_coherent h u d hd
  have e1 : d2.contents = d.contents := show d2.core.contents = d.core.contents by rw [h2]
  have e2 : d2.encoding = d.encoding := show d2.core.encoding = d.core.encoding by rw [h2]
  have e3 : d2.index = d.index := show d2.core.index = d.core.index by rw [h2]
  have e4 : d2.endings = d.endings := show d2.core.endings = d.core.endings by rw [h2]
  have e5 : d2.parse = d.parse := show d2.core.parse = d.core.parse by rw [h2]
  have hf2 : formattable u (didChangeFormattingOptions u o s) =
      some (some (some (d2, settingsForUrl s.workspaces u))) := by
    unfold formattable
    rw [h1]
    simp only [show (didChangeFormattingOptions u o s).workspaces = s.workspaces from rfl, hx, e5, hp, he,
      Bool.false_eq_true, if_false]
  simp only [handleRequest, Option.map_map, documentFormatting, hf2]
  rw [e5, hp]
  cases T.format ((settingsForUrl s.workspaces u).toFormatOptions T.windows d2.contents d2.settings)
      (T.parse d.contents) with
  | none => rfl
  | some f =>
    simp only [e1]
    split
    · rfl
    · rw [e2, e3, e4, hi]
      unfold finalText
      cases replaceAllEdit d.encoding (LineIndex.new d.contents) d.endings (T.diff d.contents
        (if u.scheme = "vscode-notebook-cell" ∧ f.getLast? = some '\n' then f.dropLast else f)) <;> rfl

/-- C27: with a governing `air.toml` the editor's options make no difference. -/
theorem C27_toml_wins {es : List (Env × Event)} {s : State T} {rs : List (Nat × Answer Response)}
    {os : List Out} (h : Runs start es s rs os) (u : Url) (d : Document T) (hd : s.doc u = some d)
    (t : Settings) (ht : settingsForUrl s.workspaces u = .toml t)
    (hx : excludedFromFormatting (.toml t) u = some false)
    (he : T.hasError (T.parse d.contents) = false) (o o' : FormattingOptions) (env : Env) :
    (handleRequest env (.formatting u o) s).map Prod.snd =
      (handleRequest env (.formatting u o') s).map Prod.snd := by
  obtain ⟨opts, h1, h2⟩ := C27_options h u d hd o (by rw [ht]; exact hx) he
  obtain ⟨opts', h3, h4⟩ := C27_options h u d hd o' (by rw [ht]; exact hx) he
  rw [h2, h4]
  rw [ht] at h1 h3
  cases h1
  cases h3
  rfl

/-! ## C28 -/

theorem EditorBuffer.noLoneCr {u : Url} {hist : List Event} {enc : Encoding}
    {o : Option (Encoding × List Char)} (h : EditorBuffer u hist enc o) :
    ∀ x, o = some x → NoLoneCr x.2 := by
  induction h with
  | nil => simp
  | «initialize» id folders c h ih => exact ih
  | opened version text h hcr ih =>
    intro x hx
    cases hx
    exact hcr
  | changed version changes h hs hcr ih =>
    intro x hx
    cases hx
    exact (LspSteps.steps hs (ih _ rfl) hcr).2
  | closed h ih => simp
  | other e h h0 h1 h2 h3 ih => exact ih

theorem excluded_iff {w : WorkspaceSettings} {u : Url} :
    excludedFromFormatting w u = some true ↔ Refused w u := by
  unfold excludedFromFormatting Refused
  cases u.filePath with
  | none => simp
  | some path =>
    simp only [isDocumentExcluded, Option.some.injEq, exists_eq_left']
    cases Discovery.anyExcludeMatchedPathOrAnyParents path false w.settings with
    | none => simp
    | some b =>
      cases b
      · simp
      · simp

theorem request_unfold {env : Env} {id : Nat} {u : Url} {o : FormattingOptions} {s : State T} {t : Tick T}
    (ht : handleEvent env (.request id (.formatting u o)) s = some t) :
    ∃ ans, t.response = some (id, ans) ∧
      (handleRequest env (.formatting u o) s).map Prod.snd = some ans := by
  simp only [handleEvent, Option.map_eq_some_iff] at ht
  obtain ⟨⟨s', a⟩, h, rfl⟩ := ht
  exact ⟨a, rfl, by rw [h]; rfl⟩

theorem formatting_nothing {env : Env} {u : Url} {o : FormattingOptions} {s : State T} {d : Document T}
    (hd : s.doc u = some d)
    (h : excludedFromFormatting (settingsForUrl s.workspaces u) u = some true ∨
      T.hasError d.parse = true) {ans : Answer Response}
    (ha : (handleRequest env (.formatting u o) s).map Prod.snd = some ans) :
    ans = some (.edits none) := by
  have hf := sameDoc_formattingOptions u o s u
  unfold SameDoc at hf
  rw [show s.docs.lookup u = some d from hd] at hf
  simp only [Option.map_some, Option.map_eq_some_iff] at hf
  obtain ⟨d2, h1, h2⟩ := hf
  have e5 : d2.parse = d.parse := show d2.core.parse = d.core.parse by rw [h2]
  simp only [handleRequest, Option.map_map, documentFormatting, formattable, State.doc, h1,
    show (didChangeFormattingOptions u o s).workspaces = s.workspaces from rfl, e5] at ha
  cases hx : excludedFromFormatting (settingsForUrl s.workspaces u) u with
  | none => rw [hx] at ha; cases ha
  | some b =>
    rw [hx] at ha h
    cases b with
    | true => cases ha; rfl
    | false =>
      rcases h with h | h
      · cases h
      · simp only [h, if_true] at ha; cases ha; rfl

/-- C28: a formatting request for a document whose buffer in the editor is `buffer`. Nothing is changed
if the document is refused, does not parse or is formatted already; the request fails if the formatter
does; otherwise applying the edits to the buffer gives the formatted text, up to the kind of line ends
(without the last newline in a notebook). -/
theorem C28_formatting (hdiff : DiffOk T) {es : List (Env × Event)} {s : State T}
    {rs : List (Nat × Answer Response)} {os : List Out} (h : Runs start es s rs os) {u : Url}
    {enc enc' : Encoding} {buffer : List Char}
    (hb : EditorBuffer u (es.map Prod.snd) enc (some (enc', buffer))) (env : Env) (id : Nat)
    (o : FormattingOptions) (t : Tick T)
    (ht : handleEvent env (.request id (.formatting u o)) s = some t) :
    ∃ opts ans text w, text = replaceCrlf '\r' '\n' buffer ∧ w = settingsForUrl s.workspaces u ∧
      Effective T.windows o text w opts ∧ t.response = some (id, ans) ∧
      (Refused w u → ans = some (.edits none)) ∧
      (T.hasError (T.parse text) = true → ans = some (.edits none)) ∧
      (¬ Refused w u → T.hasError (T.parse text) = false →
        (T.format opts (T.parse text) = none → ans = none) ∧
        (T.format opts (T.parse text) = some text → ans = some (.edits none)) ∧
        ∀ f, T.format opts (T.parse text) = some f → f ≠ text → '\r' ∉ f →
          ∃ edits buffer', ans = some (.edits (some edits)) ∧
            LspEdits enc' [] edits buffer buffer' ∧
            replaceCrlf '\r' '\n' buffer' = finalText u f) := by
  have hc := C24_editor h hb
  have hn := hb.noLoneCr _ rfl
  cases hd : s.doc u with
  | none => rw [hd] at hc; cases hc
  | some d =>
    rw [hd] at hc
    simp only [Option.map_some, Option.some.injEq, Prod.mk.injEq] at hc
    obtain ⟨rfl, hc⟩ := hc
    obtain ⟨ans, h1, h2⟩ := request_unfold ht
    obtain ⟨d2, h3, h4, h5⟩ := options_of_request h u d hd o
    obtain ⟨hi, hp⟩ := C50_coherent h u d hd
    rw [← hc]
    refine ⟨_, ans, _, _, rfl, rfl, h5, h1, ?_, ?_, ?_⟩
    · intro hr
      exact formatting_nothing hd (.inl (excluded_iff.2 hr)) h2
    · intro hr
      exact formatting_nothing hd (.inr (by rw [hp]; exact hr)) h2
    · intro hr he
      have hx : excludedFromFormatting (settingsForUrl s.workspaces u) u = some false := by
        cases hx : excludedFromFormatting (settingsForUrl s.workspaces u) u with
        | none =>
          have hw : (didChangeFormattingOptions u o s).workspaces = s.workspaces := rfl
          simp only [handleRequest, Option.map_map, documentFormatting, formattable, h3, hw, hx] at h2
          cases h2
        | some b =>
          cases b with
          | true => exact absurd (excluded_iff.1 hx) hr
          | false => rfl
      obtain ⟨opts, h6, h7⟩ := C27_options h u d hd o hx he
      have hopts : opts = (settingsForUrl s.workspaces u).toFormatOptions T.windows d2.contents
          d2.settings := by
        generalize settingsForUrl s.workspaces u = w at h5 h6
        generalize hg : w.toFormatOptions T.windows d2.contents d2.settings = x at h5
        cases h5 <;> cases h6 <;> rfl
      rw [h7 env, Option.some.injEq] at h2
      rw [← hopts]
      refine ⟨?_, ?_, ?_⟩
      · intro hf; rw [hf] at h2; exact h2.symm
      · intro hf; rw [hf] at h2; simp only [if_true] at h2; exact h2.symm
      · intro f hf hne hcr
        rw [hf] at h2
        simp only [hne, if_false] at h2
        have hcr2 : '\r' ∉ finalText u f := by
          unfold finalText
          split
          · exact fun hm => hcr (List.dropLast_subset _ hm)
          · exact hcr
        obtain ⟨hl, hr⟩ := hdiff d.contents (finalText u f)
        obtain ⟨es', r, h8, h9, h10, _⟩ := C11_mixed d.encoding d.endings (T.diff d.contents (finalText u f))
          buffer (finalText u f) hn (by rw [← hc]; exact hl) hr hcr2
        rw [← hc] at h8
        rw [h8] at h2
        exact ⟨es', r, h2.symm, h9, h10⟩

/-- C28: formatting a document that is not open is an error. -/
theorem C28_not_open (s : State T) (u : Url) (hd : s.doc u = none) (env : Env) (id : Nat)
    (o : FormattingOptions) :
    ∃ t, handleEvent env (.request id (.formatting u o)) s = some t ∧ t.response = some (id, none) := by
  have hf := sameDoc_formattingOptions u o s u
  unfold SameDoc at hf
  rw [show s.docs.lookup u = none from hd] at hf
  simp only [Option.map_none, Option.map_eq_none_iff] at hf
  refine ⟨_, by
    simp only [handleEvent, handleRequest, documentFormatting, formattable, State.doc, hf,
      Option.map_some]
    rfl, rfl⟩

/-- The kind of line ends of a document is that of the text it was opened with. -/
theorem endings_opened {u : Url} {version : Int} {text : List Char} {before : List Event} (after : List Event) :
    ∀ {es : List (Env × Event)} {s : State T} {rs : List (Nat × Answer Response)} {os : List Out},
    Runs start es s rs os →
    es.map Prod.snd = before ++ .notification (.didOpen u version text) :: after →
    (∀ v x, .notification (.didOpen u v x) ∉ after) →
    ∀ d, s.doc u = some d → d.endings = infer '\r' '\n' text := by
  generalize hn : after.length = n
  induction n generalizing after with
  | zero =>
    obtain rfl := List.length_eq_zero_iff.1 hn
    intro es s rs os h hh _ d hd
    obtain ⟨es', env, s', rs', os', t, hr, he, ht, rfl⟩ := runs_snoc_inv h hh
    obtain ⟨-, h4⟩ := handleEvent_spec ht
    have h5 := h4 u
    rw [hd] at h5
    generalize (s'.doc u).map Document.core = a at h5
    simp only [Option.map_some] at h5
    generalize hb : some d.core = b at h5
    cases h5 with
    | opened h6 =>
      have := Option.some.inj hb
      have h7 := (new_spec h6).2.2.2.2.2
      rw [← h7]
      exact (congrArg Document.endings this : d.core.endings = _)
    | other h6 => exact absurd rfl (h6 _ _)
  | succ n ih =>
    have hne : after ≠ [] := by rintro rfl; cases hn
    obtain ⟨after, e, rfl⟩ : ∃ l e, after = l ++ [e] :=
      ⟨_, _, (List.dropLast_concat_getLast hne).symm⟩
    have hn' : after.length = n := by simpa using hn
    intro es s rs os h hh hno d hd
    rw [← List.cons_append, ← List.append_assoc] at hh
    obtain ⟨es', env, s', rs', os', t, hr, he, ht, rfl⟩ := runs_snoc_inv h hh
    have ih := ih after hn' hr he fun v x hm => hno v x (List.mem_append_left _ hm)
    obtain ⟨-, h4⟩ := handleEvent_spec ht
    have h5 := h4 u
    rw [hd] at h5
    have ih' : ∀ d, (s'.doc u).map Document.core = some d → d.endings = infer '\r' '\n' text := by
      intro d hd
      simp only [Option.map_eq_some_iff] at hd
      obtain ⟨d', hd', rfl⟩ := hd
      exact ih d' hd'
    generalize (s'.doc u).map Document.core = a at h5 ih'
    simp only [Option.map_some] at h5
    generalize hb : some d.core = b at h5
    cases h5 with
    | opened h6 => exact absurd (List.mem_append_right _ List.mem_cons_self) (hno _ _)
    | changed h6 =>
      rename_i v cs d0 d1
      rw [← ih' d0 rfl]
      have h7 : d1.endings = d0.endings := by
        unfold Document.onDidChange at h6
        split at h6
        · cases h6
        · simp only [Option.map_eq_some_iff] at h6
          obtain ⟨_, _, rfl⟩ := h6
          rfl
      rw [← h7]
      show d.core.endings = d1.core.endings
      rw [Option.some.inj hb]
    | changedUnknown => cases hb
    | closed => cases hb
    | other _ _ _ => exact ih' d.core hb.symm

/-- C28: if the line ends of the buffer are all of the kind they were of on opening, so are those of the
formatted buffer, which then is the formatted text exactly. -/
theorem C28_line_ends (hdiff : DiffOk T) {es : List (Env × Event)} {s : State T}
    {rs : List (Nat × Answer Response)} {os : List Out} (h : Runs start es s rs os) {u : Url}
    {version : Int} {opened : List Char} {before after : List Event}
    (hist : es.map Prod.snd = before ++ .notification (.didOpen u version opened) :: after)
    (hno : ∀ v x, .notification (.didOpen u v x) ∉ after)
    {enc enc' : Encoding} {buffer : List Char}
    (hb : EditorBuffer u (es.map Prod.snd) enc (some (enc', buffer))) (env : Env) (id : Nat)
    (o : FormattingOptions) (t : Tick T)
    (ht : handleEvent env (.request id (.formatting u o)) s = some t) (edits : List Edit)
    (hans : t.response = some (id, some (.edits (some edits)))) :
    ∃ opts f, Effective T.windows o (replaceCrlf '\r' '\n' buffer) (settingsForUrl s.workspaces u) opts ∧
      T.format opts (T.parse (replaceCrlf '\r' '\n' buffer)) = some f ∧
      (infer '\r' '\n' opened = .lf → '\r' ∉ buffer → LspEdits enc' [] edits buffer (finalText u f)) ∧
      (infer '\r' '\n' opened = .crlf → (∀ text, '\r' ∉ text → buffer = toCrlf '\r' '\n' text →
        LspEdits enc' [] edits buffer (toCrlf '\r' '\n' (finalText u f)))) := by
  have hc := C24_editor h hb
  cases hd : s.doc u with
  | none => rw [hd] at hc; cases hc
  | some d =>
    rw [hd] at hc
    simp only [Option.map_some, Option.some.injEq, Prod.mk.injEq] at hc
    obtain ⟨rfl, hc⟩ := hc
    obtain ⟨ans, h1, h2⟩ := request_unfold ht
    rw [h1] at hans
    simp only [Option.some.injEq, Prod.mk.injEq, true_and] at hans
    subst hans
    obtain ⟨hi, hp⟩ := C50_coherent h u d hd
    have he : T.hasError (T.parse d.contents) = false := by
      cases he : T.hasError (T.parse d.contents) with
      | false => rfl
      | true => have := formatting_nothing hd (.inr (by rw [hp]; exact he)) h2; cases this
    have hx : excludedFromFormatting (settingsForUrl s.workspaces u) u = some false := by
      cases hx : excludedFromFormatting (settingsForUrl s.workspaces u) u with
      | none =>
        obtain ⟨d2, h3, -, -⟩ := options_of_request h u d hd o
        have hw : (didChangeFormattingOptions u o s).workspaces = s.workspaces := rfl
        simp only [handleRequest, Option.map_map, documentFormatting, formattable, h3, hw, hx] at h2
        cases h2
      | some b =>
        cases b with
        | true => have := formatting_nothing hd (.inl hx) h2; cases this
        | false => rfl
    obtain ⟨opts, h6, h7⟩ := C27_options h u d hd o hx he
    rw [h7 env, Option.some.injEq] at h2
    have hend := endings_opened after h hist hno d hd
    rw [← hc]
    cases hf : T.format opts (T.parse d.contents) with
    | none => rw [hf] at h2; cases h2
    | some f =>
      rw [hf] at h2
      simp only at h2
      split at h2
      · cases h2
      · simp only [Option.map_eq_some_iff, Option.some.injEq, Response.edits.injEq] at h2
        obtain ⟨edits', h8, rfl⟩ := h2
        obtain ⟨hl, hr⟩ := hdiff d.contents (finalText u f)
        refine ⟨opts, f, h6, hf, ?_, ?_⟩
        · intro hlf hcr
          rw [hend, hlf] at h8
          rw [replaceCrlf_of_no_cr _ hcr] at hc
          rw [← hc] at hcr ⊢
          obtain ⟨es', h9, h10⟩ := C11_edits_reach_formatted d.encoding .lf
            (T.diff d.contents (finalText u f)) d.contents (finalText u f) hl hr hcr
          rw [h8] at h9
          cases h9
          exact h10
        · intro hlf text hcr hbuf
          rw [hend, hlf] at h8
          rw [hbuf, replaceCrlf_toCrlf _ _ (by decide)] at hc
          subst hc
          rw [hbuf]
          obtain ⟨es', h9, h10⟩ := C11_edits_reach_formatted d.encoding .crlf
            (T.diff d.contents (finalText u f)) d.contents (finalText u f) hl hr hcr
          rw [h8] at h9
          cases h9
          exact h10

/-! ## Concrete cases -/

/-- A formatter that removes spaces and adds a final newline, and prints the line ends it is told to;
`%` is a syntax error. -/
def spaceTools : Tools :=
  { matchTools with
    Parse := List Char
    parse := id
    hasError := fun t => t.contains '%'
    view := fun _ _ _ => none
    formatRange := fun _ _ _ => none
    format := fun o t =>
      let t := (t.filter fun c => c ≠ ' ' ∧ c ≠ '\r')
      let t := if t.getLast? = some '\n' then t else t ++ ['\n']
      some (match o.lineEnding with | .lf => t | .crlf => toCrlf '\r' '\n' t)
    diff := fun a b => if a = b then [.equal a] else [.delete a, .insert b] }

theorem spaceTools_diff : DiffOk spaceTools := by
  intro old new
  show (List.flatMap _ (if old = new then _ else _) = _ ∧ List.flatMap _ (if old = new then _ else _) = _)
  split <;> rename_i h <;> simp [TextEdit.Chunk.leftText, TextEdit.Chunk.rightText, h]

def spaceDisk (toml : Settings.Toml) : Discovery.Disk where
  isFile p := p == ["/", "p", "air.toml"]
  readToml _ := some [("format", .table [("line-ending", toml)])]

def spaceEnv (toml : Settings.Toml) : Env := { plainEnv with disk := spaceDisk toml }

def spaceSession (lineEnding : String) (u : Url) (text : String) (more : List Notification) : List (Nat × Answer Response) :=
  (mainLoop (T := spaceTools)
    (([.request 0 (.initialize [fileUrl ["/", "p"]] ⟨true, false, true, false⟩),
      .notification (.didOpen u 1 text.toList)] ++ more.map .notification ++
      [.request 1 (.formatting u ⟨true, 4⟩)] : List Event).map fun e => (spaceEnv (.str lineEnding), e))
    start).responses.drop 1

def cellUrl : Url := { text := "vscode-notebook-cell:/p/a.ipynb#1", scheme := "vscode-notebook-cell", filePath := none }

/-- Edits; nothing to do; a syntax error; an excluded file (default exclusion of `renv`); a notebook
cell; a CR LF document. -/
example :
    spaceSession "auto" (fileUrl ["/", "p", "a.R"]) "a <- 1\n" [] =
      [(1, some (.edits (some [⟨⟨⟨0, 0⟩, ⟨1, 0⟩⟩, "a<-1\n".toList⟩])))] ∧
    spaceSession "auto" (fileUrl ["/", "p", "a.R"]) "a<-1\n" [] = [(1, some (.edits none))] ∧
    spaceSession "auto" (fileUrl ["/", "p", "a.R"]) "a % 1\n" [] = [(1, some (.edits none))] ∧
    spaceSession "auto" (fileUrl ["/", "p", "renv", "a.R"]) "a <- 1\n" [] = [(1, some (.edits none))] ∧
    spaceSession "auto" cellUrl "a <- 1" [] =
      [(1, some (.edits (some [⟨⟨⟨0, 0⟩, ⟨0, 6⟩⟩, "a<-1".toList⟩])))] ∧
    spaceSession "auto" (fileUrl ["/", "p", "a.R"]) "a \r\n" [] =
      [(1, some (.edits (some [⟨⟨⟨0, 0⟩, ⟨1, 0⟩⟩, "a\r\n".toList⟩])))] := by
  decide +kernel

/-- C28 is false for formatted texts with CR: with `line-ending = "crlf"` the formatter's CR LF line
ends are converted to CR LF once more for a document that has such line ends, so that the editor gets
an additional CR per line. -/
theorem C28_crlf_doubled :
    spaceSession "crlf" (fileUrl ["/", "p", "a.R"]) "a \r\n" [] =
      [(1, some (.edits (some [⟨⟨⟨0, 0⟩, ⟨1, 0⟩⟩, "a\r\r\n".toList⟩])))] := by
  decide +kernel

/-- The restriction of `C28_line_ends` to line ends as on opening is needed: after the whole text of an
LF document has been replaced by one with CR LF line ends, formatting it gives LF line ends. -/
theorem C28_stale_line_ends :
    spaceSession "auto" (fileUrl ["/", "p", "a.R"]) "a\n"
        [.didChange (fileUrl ["/", "p", "a.R"]) 2 [{ range := none, text := "b \r\n".toList }]] =
      [(1, some (.edits (some [⟨⟨⟨0, 0⟩, ⟨1, 0⟩⟩, "b\n".toList⟩])))] := by
  decide +kernel

end Verif.Lsp
