import Verif.Props.MainLoop

/-!
# C25: client configuration; C43: pushing settings to the client
-/

namespace Verif.Lsp

open Verif.TextChanges Verif.LineEnding Verif.LineIndex
open Verif.Resolver (Path)
open Verif.Settings (Settings IndentStyle)

variable {T : Tools}

/-! ## C25 -/

/-- The width a client asks for is used if it is between 1 and 24, otherwise it is 2. -/
def widthOrDefault (n : Nat) : Nat := if 1 ≤ n ∧ n ≤ 24 then n else 2

/-- The options a client configures for a document: `answer` is what it says about the section of a
configuration for the document. Either all three values are there, with the indentation given as a
number or as the tab size, or one is missing (null), and then nothing is configured. -/
inductive Configured (answer : String → Json) : DocSettings → Prop
  | number {b n t} (h1 : answer "editor.insertSpaces" = .bool b)
      (h2 : answer "editor.indentSize" = .uint n) (h3 : answer "editor.tabSize" = .uint t) :
      Configured answer { indentStyle := some (if b then .space else .tab),
                          indentWidth := some (widthOrDefault n) }
  | tabSize {b t} (h1 : answer "editor.insertSpaces" = .bool b)
      (h2 : answer "editor.indentSize" = .str "tabSize") (h3 : answer "editor.tabSize" = .uint t) :
      Configured answer { indentStyle := some (if b then .space else .tab),
                          indentWidth := some (widthOrDefault t) }
  | unknown {b s t} (h1 : answer "editor.insertSpaces" = .bool b)
      (h2 : answer "editor.indentSize" = .str s) (hs : s ≠ "tabSize")
      (h3 : answer "editor.tabSize" = .uint t) :
      Configured answer { indentStyle := some (if b then .space else .tab), indentWidth := some 2 }
  | missing (h1 : answer "editor.insertSpaces" = .null ∨ ∃ b, answer "editor.insertSpaces" = .bool b)
      (h2 : answer "editor.indentSize" = .null ∨ (∃ n, answer "editor.indentSize" = .uint n) ∨
        ∃ s, answer "editor.indentSize" = .str s)
      (h3 : answer "editor.tabSize" = .null ∨ ∃ n, answer "editor.tabSize" = .uint n)
      (hn : answer "editor.insertSpaces" = .null ∨ answer "editor.indentSize" = .null ∨
        answer "editor.tabSize" = .null) : Configured answer {}

theorem indentWidthFromUsize_eq (n : Nat) : indentWidthFromUsize n = widthOrDefault n := by
  unfold indentWidthFromUsize widthOrDefault Settings.indentWidthTryFrom
  by_cases h : 1 ≤ n ∧ n ≤ 24
  · have h1 : n < 256 := by omega
    have h2 : n ≠ 0 := by omega
    simp [h1, h2, h]
  · rw [if_neg h]
    by_cases h1 : n < 256
    · by_cases h2 : n = 0
      · simp [h2]
      · have h3 : ¬ n ≤ 24 := by omega
        simp [h1, h2, h3]
    · simp [h1]

theorem documentConfig_iff (answer : String → Json) (c : DocSettings) :
    documentConfig [answer "editor.insertSpaces", answer "editor.indentSize", answer "editor.tabSize"] =
      some c ↔ Configured answer c := by
  generalize ha : answer "editor.insertSpaces" = a
  generalize hb : answer "editor.indentSize" = b
  generalize hd : answer "editor.tabSize" = d
  constructor
  · intro h
    have ha' : a = .null ∨ ∃ x, a = .bool x := by
      cases a <;> simp [documentConfig, optField, Json.bool?] at h ⊢
    have hb' : b = .null ∨ (∃ n, b = .uint n) ∨ ∃ x, b = .str x := by
      rcases ha' with rfl | ⟨x, rfl⟩ <;> cases b <;>
        simp [documentConfig, optField, Json.bool?, Json.indentSize?] at h ⊢
    have hd' : d = .null ∨ ∃ n, d = .uint n := by
      rcases ha' with rfl | ⟨x, rfl⟩ <;> rcases hb' with rfl | ⟨n, rfl⟩ | ⟨y, rfl⟩ <;> cases d <;>
        simp [documentConfig, optField, Json.bool?, Json.indentSize?, Json.uint?] at h ⊢
    by_cases hnull : a = .null ∨ b = .null ∨ d = .null
    · have : c = {} := by
        rcases ha' with rfl | ⟨x, rfl⟩ <;> rcases hb' with rfl | ⟨n, rfl⟩ | ⟨y, rfl⟩ <;>
          rcases hd' with rfl | ⟨z, rfl⟩ <;>
          simp [documentConfig, optField, Json.bool?, Json.indentSize?, Json.uint?, fromVsc] at h hnull <;>
          exact h.symm
      subst this
      refine .missing ?_ ?_ ?_ ?_ <;> simpa only [ha, hb, hd]
    · simp only [not_or] at hnull
      rcases ha' with rfl | ⟨x, rfl⟩
      · exact absurd rfl hnull.1
      rcases hd' with rfl | ⟨z, rfl⟩
      · exact absurd rfl hnull.2.2
      rcases hb' with rfl | ⟨n, rfl⟩ | ⟨y, rfl⟩
      · exact absurd rfl hnull.2.1
      · simp [documentConfig, optField, Json.bool?, Json.indentSize?, Json.uint?, fromVsc,
          indentWidthFromVsc, indentWidthFromUsize_eq] at h
        subst h
        exact .number ha hb hd
      · simp [documentConfig, optField, Json.bool?, Json.indentSize?, Json.uint?, fromVsc,
          indentWidthFromVsc, indentWidthFromUsize_eq] at h
        subst h
        by_cases hy : y = "tabSize"
        · subst hy; rw [if_pos rfl]; exact .tabSize ha hb hd
        · rw [if_neg hy]; exact .unknown ha hb hy hd
  · intro h
    cases h with
    | number h1 h2 h3 =>
      rw [ha] at h1; rw [hb] at h2; rw [hd] at h3
      subst h1 h2 h3
      simp [documentConfig, optField, Json.bool?, Json.uint?, Json.indentSize?, fromVsc,
        indentWidthFromVsc, indentWidthFromUsize_eq, indentStyleFromVsc]
    | tabSize h1 h2 h3 =>
      rw [ha] at h1; rw [hb] at h2; rw [hd] at h3
      subst h1 h2 h3
      simp [documentConfig, optField, Json.bool?, Json.uint?, Json.indentSize?, fromVsc,
        indentWidthFromVsc, indentWidthFromUsize_eq, indentStyleFromVsc]
    | unknown h1 h2 hs h3 =>
      rw [ha] at h1; rw [hb] at h2; rw [hd] at h3
      subst h1 h2 h3
      simp [documentConfig, optField, Json.bool?, Json.uint?, Json.indentSize?, fromVsc,
        indentWidthFromVsc, indentWidthFromUsize_eq, indentStyleFromVsc, hs]
    | missing h1 h2 h3 hn =>
      rw [ha] at h1 hn; rw [hb] at h2 hn; rw [hd] at h3 hn
      rcases h1 with rfl | ⟨b', rfl⟩ <;> rcases h2 with rfl | ⟨n, rfl⟩ | ⟨x, rfl⟩ <;>
        rcases h3 with rfl | ⟨t, rfl⟩ <;>
        first
        | (exfalso; revert hn; simp; done)
        | simp [documentConfig, optField, Json.bool?, Json.uint?, Json.indentSize?, fromVsc]

/-- What the client is asked about the document. -/
def answerFor (ans : ConfigItem → Json) (u : Url) (name : String) : Json :=
  ans { scope := some u, section_ := name }

def setOptions (c : DocSettings) (d : Document T) : Document T := { d with settings := c }

theorem updateDocuments_spec (ans : ConfigItem → Json) (us : List Url) :
    ∀ (docs : List (Url × Document T)) (rest : List Json),
    let items := us.flatMap (fun u => documentSections.map fun x => ans { scope := some u, section_ := x })
    let r := updateDocumentsConfig us (items ++ rest) docs
    (∀ u, r.1.lookup u = docs.lookup u ∨ u ∈ us ∧ ∃ c, Configured (answerFor ans u) c ∧
      r.1.lookup u = (docs.lookup u).map (setOptions c)) ∧
    (r.2 = true → ∀ u ∈ us, ∃ c, Configured (answerFor ans u) c ∧
      r.1.lookup u = (docs.lookup u).map (setOptions c)) ∧
    ((∀ u ∈ us, (docs.lookup u).isSome ∧ ∃ c, Configured (answerFor ans u) c) → r.2 = true) := by
  induction us with
  | nil =>
    intro docs rest
    refine ⟨fun u => .inl rfl, fun _ u hu => by (cases hu), fun _ => rfl⟩
  | cons v us ih =>
    intro docs rest
    simp only [List.flatMap_cons]
    have htake : ∀ more : List Json,
        ((documentSections.map fun x => ans { scope := some v, section_ := x }) ++ more).take 3 =
          [answerFor ans v "editor.insertSpaces", answerFor ans v "editor.indentSize",
            answerFor ans v "editor.tabSize"] := by
      intro more; rfl
    have hdrop : ∀ more : List Json,
        ((documentSections.map fun x => ans { scope := some v, section_ := x }) ++ more).drop 3 =
          more := by
      intro more; rfl
    rw [List.append_assoc]
    simp only [updateDocumentsConfig, htake, hdrop]
    cases hc : documentConfig [answerFor ans v "editor.insertSpaces",
        answerFor ans v "editor.indentSize", answerFor ans v "editor.tabSize"] with
    | none =>
      refine ⟨fun u => .inl rfl, fun h => by (cases h), fun h => ?_⟩
      obtain ⟨c, h1⟩ := (h v (by simp)).2
      rw [← documentConfig_iff, hc] at h1
      cases h1
    | some c =>
      have hconf := (documentConfig_iff _ _).1 hc
      cases hl : docs.lookup v with
      | none =>
        refine ⟨fun u => .inl rfl, fun h => by (cases h), fun h => ?_⟩
        have := (h v (by simp)).1
        rw [hl] at this
        cases this
      | some d =>
        have hmod := lookup_modify docs v
        obtain ⟨h1, h2, h3⟩ := ih (modifyDoc docs v (setOptions c)) rest
        have huniq : ∀ c', Configured (answerFor ans v) c' → c' = c := by
          intro c' h
          rw [← documentConfig_iff, hc] at h
          cases h; rfl
        have key : ∀ u c', Configured (answerFor ans u) c' →
            ((modifyDoc docs v (setOptions c)).lookup u).map (setOptions c') =
              (docs.lookup u).map (setOptions c') := by
          intro u c' h
          rw [hmod]
          by_cases hu : u = v
          · subst hu
            rw [if_pos rfl, Option.map_map]
            rfl
          · rw [if_neg hu]
        refine ⟨?_, ?_, ?_⟩
        · intro u
          rcases h1 u with h | ⟨h4, c', h5, h6⟩
          · rw [hmod] at h
            by_cases hu : u = v
            · rw [if_pos hu] at h
              subst hu
              exact .inr ⟨by simp, c, hconf, h⟩
            · rw [if_neg hu] at h
              exact .inl h
          · exact .inr ⟨by simp [h4], c', h5, h6.trans (key u c' h5)⟩
        · intro hok u hu
          by_cases hus : u ∈ us
          · obtain ⟨c', h5, h6⟩ := h2 hok u hus
            exact ⟨c', h5, h6.trans (key u c' h5)⟩
          · have huv : u = v := by simpa [hus] using hu
            subst huv
            rcases h1 u with h | ⟨h4, _⟩
            · rw [hmod, if_pos rfl] at h
              exact ⟨c, hconf, h⟩
            · exact absurd h4 hus
        · intro h
          apply h3
          intro u hu
          refine ⟨?_, (h u (by simp [hu])).2⟩
          have := (h u (by simp [hu])).1
          rw [hmod]
          split
          · simpa using this
          · exact this

theorem mem_keys_iff {docs : List (Url × Document T)} {u : Url} :
    u ∈ docs.map Prod.fst ↔ (docs.lookup u).isSome := by
  induction docs with
  | nil => simp
  | cons e docs ih =>
    obtain ⟨w, d⟩ := e
    rw [List.lookup_cons, List.map_cons, List.mem_cons]
    by_cases hw : u = w
    · simp [hw]
    · have : (u == w) = false := by simp [hw]
      rw [this]; simp only [hw, false_or, ih]

theorem configItems_length (uris : List Url) : (configItems uris).length = 1 + 3 * uris.length + 3 := by
  have : ∀ us : List Url, (us.flatMap (fun u => documentSections.map fun x =>
      ({ scope := some u, section_ := x } : ConfigItem))).length = 3 * us.length := by
    intro us
    induction us with
    | nil => rfl
    | cons u us ih =>
      rw [List.flatMap_cons, List.length_append, ih]
      simp [documentSections]
      omega
  simp only [configItems, List.length_append, this]
  rfl

/-- The global values are of the documented kinds. -/
structure GlobalsValid (ans : String → Json) : Prop where
  logLevel : ans "air.logLevel" = .null ∨ ∃ s ∈ logLevels, ans "air.logLevel" = .str s
  dependencies : ans "air.dependencyLogLevels" = .null ∨ ∃ s, ans "air.dependencyLogLevels" = .str s
  sync : ans "air.syncFileSettingsWithClient" = .null ∨
    ∃ b, ans "air.syncFileSettingsWithClient" = .bool b

def globalAnswer (ans : ConfigItem → Json) (name : String) : Json :=
  ans { scope := none, section_ := name }

theorem globalConfig_spec (ans : String → Json) :
    (∀ b, globalConfig [ans "air.logLevel", ans "air.dependencyLogLevels",
      ans "air.syncFileSettingsWithClient"] = some b →
      (b = true ↔ ans "air.syncFileSettingsWithClient" = .bool true) ∧ GlobalsValid ans) ∧
    (GlobalsValid ans → globalConfig [ans "air.logLevel", ans "air.dependencyLogLevels",
      ans "air.syncFileSettingsWithClient"] ≠ none) := by
  constructor
  · intro b h
    simp only [globalConfig, List.getElem?_cons_zero, List.getElem?_cons_succ, Option.bind_eq_bind,
      Option.bind_eq_some_iff, Option.some.injEq] at h
    obtain ⟨y, hy, z, hz, x, hx, rfl⟩ := h
    refine ⟨?_, ?_, ?_, ?_⟩
    · generalize ans "air.syncFileSettingsWithClient" = j at hx
      cases j <;> simp [optField, Json.bool?] at hx ⊢ <;> subst hx <;> simp
    · generalize ans "air.logLevel" = j at hy
      cases j with
      | null => exact .inl rfl
      | str n =>
        refine .inr ⟨n, ?_, rfl⟩
        simp only [optField, Json.logLevel?] at hy
        split at hy
        · rename_i hc; simpa using hc
        · cases hy
      | bool b => cases hy
      | uint n => cases hy
      | other => cases hy
    · generalize ans "air.dependencyLogLevels" = j at hz
      cases j with
      | null => exact .inl rfl
      | str n => exact .inr ⟨n, rfl⟩
      | bool b => cases hz
      | uint n => cases hz
      | other => cases hz
    · generalize ans "air.syncFileSettingsWithClient" = j at hx
      cases j with
      | null => exact .inl rfl
      | bool b => exact .inr ⟨b, rfl⟩
      | str n => cases hx
      | uint n => cases hx
      | other => cases hx
  · rintro ⟨h1, h2, h3⟩
    rcases h1 with h1 | ⟨s, hs, h1⟩ <;> rcases h2 with h2 | ⟨t, h2⟩ <;>
      rcases h3 with h3 | ⟨b, h3⟩ <;>
      simp [globalConfig, h1, h2, h3, optField, Json.logLevel?, Json.str?, Json.bool?]
    all_goals simpa using hs

theorem updateConfig_attribution {env : Env} {ans : ConfigItem → Json}
    {uris : List Url} (hans : env.config (configItems uris) = some ((configItems uris).map ans))
    {s s' : State T} (hreq : s.capabilities.requestConfiguration = true) {ok : Bool} {outs : List Out}
    (h : updateConfig env uris s = (s', ok, outs)) :
    (∀ u, s'.doc u = s.doc u ∨ u ∈ uris ∧ ∃ d c, s.doc u = some d ∧ Configured (answerFor ans u) c ∧
      s'.doc u = some { d with settings := c }) ∧
    (ok = true → (∀ u ∈ uris, ∀ d, s.doc u = some d → ∃ c, Configured (answerFor ans u) c ∧
        s'.doc u = some { d with settings := c }) ∧
      (s'.sync = true ↔ globalAnswer ans "air.syncFileSettingsWithClient" = .bool true) ∧
      GlobalsValid (globalAnswer ans)) ∧
    ((∀ u ∈ uris, (s.doc u).isSome ∧ ∃ c, Configured (answerFor ans u) c) → s.logging = true →
      GlobalsValid (globalAnswer ans) → ok = true) := by
  have hitems : (configItems uris).map ans = globalAnswer ans "positron.r.diagnostics.enable" ::
      (uris.flatMap (fun u => documentSections.map fun x => ans { scope := some u, section_ := x }) ++
        [globalAnswer ans "air.logLevel", globalAnswer ans "air.dependencyLogLevels",
          globalAnswer ans "air.syncFileSettingsWithClient"]) := by
    simp [configItems, List.map_flatMap, diagnosticsSections, globalSections, globalAnswer,
      List.map_map, Function.comp_def]
  have hlen : (uris.flatMap (fun u => documentSections.map fun x =>
      ans { scope := some u, section_ := x })).length = 3 * uris.length := by
    have := configItems_length uris
    rw [← List.length_map (f := ans), hitems] at this
    simp only [List.length_cons, List.length_append, List.length_nil] at this
    omega
  obtain ⟨h1, h2, h3⟩ := updateDocuments_spec ans uris s.docs []
  simp only [List.append_nil] at h1 h2 h3
  have conv : ∀ {docs' : List (Url × Document T)},
      (∀ u, docs'.lookup u = s.docs.lookup u ∨ u ∈ uris ∧ ∃ c, Configured (answerFor ans u) c ∧
        docs'.lookup u = (s.docs.lookup u).map (setOptions c)) →
      (∀ u, docs'.lookup u = s.doc u ∨ u ∈ uris ∧ ∃ d c, s.doc u = some d ∧
        Configured (answerFor ans u) c ∧ docs'.lookup u = some { d with settings := c }) := by
    intro docs' hd u
    rcases hd u with h | ⟨hu, c, hc, h⟩
    · exact .inl h
    · cases hdoc : s.docs.lookup u with
      | none => rw [hdoc] at h; exact .inl (h.trans hdoc.symm)
      | some d => rw [hdoc] at h; exact .inr ⟨hu, d, c, hdoc, hc, h⟩
  have hlen2 : ((configItems uris).map ans).length = 1 + 3 * uris.length + 3 := by
    rw [List.length_map, configItems_length]
  simp only [updateConfig, hreq, Bool.not_true, Bool.false_eq_true, if_false, hans] at h
  rw [if_neg (fun hne => hne hlen2)] at h
  simp only [hitems, List.drop_succ_cons, List.drop_zero] at h
  rw [← hlen, List.take_left, List.drop_left] at h
  generalize hr : updateDocumentsConfig uris (uris.flatMap (fun u => documentSections.map fun x =>
      ans { scope := some u, section_ := x })) s.docs = r at h h1 h2 h3
  obtain ⟨docs', b⟩ := r
  cases b with
  | false =>
    simp only [Prod.mk.injEq] at h
    obtain ⟨rfl, rfl, rfl⟩ := h
    refine ⟨conv h1, fun h => by (cases h), fun h4 _ _ => ?_⟩
    exact h3 h4
  | true =>
    simp only [Prod.mk.injEq] at h
    obtain ⟨rfl, rfl, rfl⟩ := h
    obtain ⟨g1, g2⟩ := globalConfig_spec (globalAnswer ans)
    have hdocs := (updateGlobal_spec env [globalAnswer ans "air.logLevel",
      globalAnswer ans "air.dependencyLogLevels", globalAnswer ans "air.syncFileSettingsWithClient"]
      { s with docs := docs' }).1
    refine ⟨?_, ?_, ?_⟩
    · intro u
      unfold State.doc
      rw [hdocs]
      exact conv h1 u
    · intro hok
      refine ⟨?_, ?_⟩
      · intro u hu d hd
        obtain ⟨c, hc, h5⟩ := h2 rfl u hu
        refine ⟨c, hc, ?_⟩
        unfold State.doc
        rw [hdocs]
        simp only at h5 ⊢
        rw [h5, show s.docs.lookup u = some d from hd]
        rfl
      · unfold updateGlobalConfig at hok ⊢
        split at hok
        · cases hok
        · split at hok
          · cases hok
          · rename_i hl _ sync hg
            have := g1 sync hg
            simp only [if_neg hl, hg]
            exact this
    · intro _ hlog hv
      have := g2 hv
      unfold updateGlobalConfig
      simp only [hlog, Bool.not_true, Bool.false_eq_true, if_false]
      split
      · contradiction
      · rfl

/-- C25: the client, answering each question of the server by `ans`, is asked about all open documents
when its configuration changes. Then every document has either its old options or those the client
gave for it; if the handler succeeds, all have the new ones, and likewise the global value. Once the server is
initialised it succeeds if and only if all answers are of the documented kinds. -/
theorem C25_attribution (env : Env) (ans : ConfigItem → Json)
    (hans : ∀ items, env.config items = some (items.map ans)) (s s' : State T)
    (hreq : s.capabilities.requestConfiguration = true) (ok : Bool) (outs : List Out)
    (h : handleNotification env .didChangeConfiguration s = some (s', ok, outs)) :
    (∀ u, s'.doc u = s.doc u ∨ ∃ d c, s.doc u = some d ∧ Configured (answerFor ans u) c ∧
      s'.doc u = some { d with settings := c }) ∧
    (ok = true → (∀ u d, s.doc u = some d → ∃ c, Configured (answerFor ans u) c ∧
        s'.doc u = some { d with settings := c }) ∧
      (s'.sync = true ↔ globalAnswer ans "air.syncFileSettingsWithClient" = .bool true) ∧
      GlobalsValid (globalAnswer ans)) ∧
    ((∀ u d, s.doc u = some d → ∃ c, Configured (answerFor ans u) c) → s.logging = true →
      GlobalsValid (globalAnswer ans) → ok = true) := by
  simp only [handleNotification, Option.some.injEq] at h
  obtain ⟨h1, h2, h3⟩ := updateConfig_attribution (hans _) hreq h
  have hmem : ∀ u, u ∈ env.order (s.docs.map Prod.fst) ↔ (s.doc u).isSome := by
    intro u
    rw [(env.perm _).mem_iff, mem_keys_iff]
    rfl
  refine ⟨?_, ?_, ?_⟩
  · intro u
    rcases h1 u with h | ⟨_, h⟩
    · exact .inl h
    · exact .inr h
  · intro hok
    refine ⟨fun u d hd => (h2 hok).1 u ((hmem u).2 (by rw [hd]; rfl)) d hd, (h2 hok).2⟩
  · intro h4
    apply h3
    intro u hu
    have h5 := (hmem u).1 hu
    refine ⟨h5, ?_⟩
    cases hd : s.doc u with
    | none => rw [hd] at h5; cases h5
    | some d => exact h4 u d hd

/-- C25: the same when a document is opened: it gets the options the client gives for it, the other
documents keep theirs. -/
theorem C25_open (env : Env) (ans : ConfigItem → Json)
    (hans : ∀ items, env.config items = some (items.map ans)) (s s' : State T)
    (hreq : s.capabilities.requestConfiguration = true) (u : Url) (version : Int) (text : List Char)
    (outs : List Out)
    (h : handleNotification env (.didOpen u version text) s = some (s', true, outs)) :
    (∃ d, s'.doc u = some d ∧ Configured (answerFor ans u) d.settings) ∧
    ∀ v, v ≠ u → s'.doc v = s.doc v := by
  simp only [handleNotification, didOpen, Option.map_eq_some_iff] at h
  obtain ⟨d, hd, h⟩ := h
  generalize hu : updateConfig env [u] { s with docs := insertDoc s.docs u d } = r at h
  obtain ⟨s2, ok, outs2⟩ := r
  cases ok with
  | false => cases h
  | true =>
    cases h
    obtain ⟨h1, h2, _⟩ := updateConfig_attribution (hans _) (s := { s with docs := insertDoc s.docs u d })
      hreq hu
    refine ⟨?_, ?_⟩
    · obtain ⟨c, hc, h3⟩ := (h2 rfl).1 u (by simp) d (by
        show (insertDoc s.docs u d).lookup u = some d
        rw [lookup_insert, if_pos rfl])
      exact ⟨_, h3, hc⟩
    · intro v hv
      rcases h1 v with h | ⟨hm, _⟩
      · rw [h]
        show (insertDoc s.docs u d).lookup v = s.docs.lookup v
        rw [lookup_insert, if_neg hv]
      · simp at hm; exact absurd hm hv

/-- C25: an answer with the wrong number of values, or an error, changes nothing. -/
theorem C25_wrong_length (env : Env) (s s' : State T)
    (hreq : s.capabilities.requestConfiguration = true) (ok : Bool) (outs : List Out)
    (h : handleNotification env .didChangeConfiguration s = some (s', ok, outs))
    (items : List ConfigItem) (hsent : .configuration items ∈ outs)
    (hans : ∀ answers, env.config items = some answers → answers.length ≠ items.length) :
    s' = s ∧ ok = false := by
  simp only [handleNotification, Option.some.injEq] at h
  have hitems : items = configItems (env.order (s.docs.map Prod.fst)) := by
    have hmem : ∀ (x : State T × Bool × List Out),
        x = updateConfig env (env.order (s.docs.map Prod.fst)) s →
        .configuration items ∈ x.2.2 → items = configItems (env.order (s.docs.map Prod.fst)) := by
      intro x hx hm
      unfold updateConfig at hx
      rw [if_neg (by simp [hreq])] at hx
      simp only at hx
      split at hx
      · subst hx; simpa using hm
      · split at hx
        · subst hx; simpa using hm
        · split at hx
          · subst hx; simpa using hm
          · subst hx
            simp only [List.mem_cons] at hm
            rcases hm with hm | hm
            · simpa using hm
            · unfold updateGlobalConfig at hm
              split at hm
              · cases hm
              · split at hm
                · cases hm
                · simp only at hm
                  split at hm
                  · unfold syncFileSettings at hm
                    split at hm
                    · simp at hm
                    · cases hm
                  · cases hm
    exact hmem _ h.symm hsent
  subst hitems
  unfold updateConfig at h
  rw [if_neg (by simp [hreq])] at h
  simp only at h
  split at h
  · cases h; exact ⟨rfl, rfl⟩
  · rename_i answers ha
    have := hans answers ha
    rw [configItems_length] at this
    rw [if_pos this] at h
    cases h; exact ⟨rfl, rfl⟩

/-! ## Pushing settings to the client -/

/-- `f` is what the client is to be told about the document at `u`: the values of the `air.toml` that
governs it. -/
def Governs (w : Workspaces) (u : Url) (f : FileSettings) : Prop :=
  ∃ t, settingsForUrl w u = .toml t ∧ f = ⟨u.text, t.indentStyle, t.indentWidth, t.lineWidth⟩

theorem mem_syncFileSettings {s : State T} {urls : List Url} {files : List FileSettings} :
    .syncFileSettings files ∈ syncFileSettings s urls ↔ s.sync = true ∧
      files = urls.filterMap (fileSettings s.workspaces) := by
  unfold syncFileSettings
  split <;> rename_i h <;> simp [h]

theorem mem_pushed {w : Workspaces} {urls : List Url} {f : FileSettings} :
    f ∈ urls.filterMap (fileSettings w) ↔ ∃ u ∈ urls, Governs w u f := by
  rw [List.mem_filterMap]
  unfold fileSettings
  constructor
  · rintro ⟨u, hu, h⟩
    refine ⟨u, hu, ?_⟩
    split at h
    · rename_i t ht
      exact ⟨t, ht, (Option.some.inj h).symm⟩
    · cases h
  · rintro ⟨u, hu, t, ht, rfl⟩
    exact ⟨u, hu, by rw [ht]⟩

/-- What one push says about open documents. -/
def PushOk (s : State T) (files : List FileSettings) : Prop :=
  s.sync = true ∧ ∀ f ∈ files, ∃ u d, s.doc u = some d ∧ Governs s.workspaces u f

theorem pushOk_of {s : State T} {urls : List Url} (hurls : ∀ u ∈ urls, (s.doc u).isSome)
    {files : List FileSettings} (h : .syncFileSettings files ∈ syncFileSettings s urls) :
    PushOk s files := by
  rw [mem_syncFileSettings] at h
  refine ⟨h.1, fun f hf => ?_⟩
  rw [h.2, mem_pushed] at hf
  obtain ⟨u, hu, hg⟩ := hf
  obtain ⟨d, hd⟩ := Option.isSome_iff_exists.1 (hurls u hu)
  exact ⟨u, d, hd, hg⟩

theorem mem_order {env : Env} {docs : List (Url × Document T)} {u : Url} :
    u ∈ env.order (docs.map Prod.fst) ↔ (docs.lookup u).isSome := by
  rw [(env.perm _).mem_iff, mem_keys_iff]

theorem updateConfig_push {env : Env} {uris : List Url} {s s' : State T} {ok : Bool} {outs : List Out}
    (h : updateConfig env uris s = (s', ok, outs)) {files : List FileSettings}
    (hf : .syncFileSettings files ∈ outs) : PushOk s' files := by
  unfold updateConfig at h
  split at h
  · cases h; cases hf
  · simp only at h
    split at h
    · cases h; simp at hf
    · split at h
      · cases h; simp at hf
      · split at h
        · cases h; simp at hf
        · rename_i docs _
          cases h
          simp only [List.mem_cons, reduceCtorEq, false_or] at hf
          unfold updateGlobalConfig at hf ⊢
          split
          · rename_i h; rw [if_pos h] at hf; cases hf
          · rename_i h; rw [if_neg h] at hf
            split
            · rename_i hg; rw [hg] at hf; cases hf
            · rename_i sync hg; rw [hg] at hf
              simp only at hf ⊢
              split at hf
              · exact pushOk_of (fun u hu => mem_order.1 hu) hf
              · cases hf

/-- C43: whatever happens, settings are pushed only while the client supports it, only for open
documents governed by an `air.toml`, and with the values of that file. -/
theorem C43_pushed (env : Env) (e : Event) (s : State T) (t : Tick T)
    (h : handleEvent env e s = some t) (files : List FileSettings)
    (hf : .syncFileSettings files ∈ t.outs) :
    t.state.sync = true ∧
      ∀ f ∈ files, ∃ u d, t.state.doc u = some d ∧ Governs t.state.workspaces u f := by
  cases e with
  | kernel => cases h; cases hf
  | request id r =>
    simp only [handleEvent, Option.map_eq_some_iff] at h
    obtain ⟨_, _, rfl⟩ := h
    cases hf
  | notification n =>
    simp only [handleEvent, Option.map_eq_some_iff] at h
    obtain ⟨⟨s', ok, outs⟩, h, rfl⟩ := h
    simp only at hf ⊢
    cases n with
    | initialized =>
      simp only [handleNotification, handleInitialized] at h
      generalize (if s.capabilities.registerConfiguration = true then
        documentSections ++ diagnosticsSections ++ globalSections else []) = sections at h
      split at h <;> cases h <;> simp at hf
    | didChangeWorkspaceFolders a r => cases h; cases hf
    | didSave u => cases h; cases hf
    | didClose u =>
      simp only [handleNotification, didClose] at h
      split at h <;> cases h <;> simp at hf
    | didChange u v cs =>
      simp only [handleNotification, didChange] at h
      split at h
      · cases h; simp at hf
      · simp only [Option.map_eq_some_iff] at h
        obtain ⟨_, _, h⟩ := h
        cases h; simp at hf
    | didChangeConfiguration =>
      simp only [handleNotification, Option.some.injEq] at h
      exact updateConfig_push h hf
    | didChangeWatchedFiles uris =>
      simp only [handleNotification, didChangeWatchedFiles, Option.some.injEq, Prod.mk.injEq] at h
      obtain ⟨rfl, -, rfl⟩ := h
      split at hf
      · exact pushOk_of (fun u hu => mem_order.1 hu) hf
      · cases hf
    | didOpen u v text =>
      simp only [handleNotification, didOpen, Option.map_eq_some_iff] at h
      obtain ⟨d, hd, h⟩ := h
      generalize hu : updateConfig env [u] { s with docs := insertDoc s.docs u d } = r at h
      obtain ⟨s2, ok2, outs2⟩ := r
      have hs := (updateConfig_spec env [u] { s with docs := insertDoc s.docs u d }).1 u
      rw [hu] at hs
      cases ok2 with
      | false => cases h; exact updateConfig_push hu hf
      | true =>
        cases h
        rw [List.mem_append] at hf
        rcases hf with hf | hf
        · exact updateConfig_push hu hf
        · refine pushOk_of ?_ hf
          intro w hw
          rw [List.mem_singleton] at hw
          subst hw
          unfold SameDoc at hs
          simp only [lookup_insert, if_true, Option.map_some] at hs
          show (s'.docs.lookup w).isSome
          cases hl : s'.docs.lookup w with
          | none => rw [hl] at hs; cases hs
          | some _ => rfl

/-- C43: a push after a change of an `air.toml` tells about every open document such a file governs. -/
theorem C43_complete (env : Env) (uris : List Url) (s : State T) (t : Tick T)
    (h : handleEvent env (.notification (.didChangeWatchedFiles uris)) s = some t)
    (files : List FileSettings) (hf : .syncFileSettings files ∈ t.outs)
    (u : Url) (d : Document T) (hd : t.state.doc u = some d) (x : Settings)
    (hx : settingsForUrl t.state.workspaces u = .toml x) :
    ⟨u.text, x.indentStyle, x.indentWidth, x.lineWidth⟩ ∈ files := by
  simp only [handleEvent, handleNotification, didChangeWatchedFiles, Option.map_some,
    Option.some.injEq] at h
  subst h
  simp only at hf hd hx
  split at hf
  · rw [mem_syncFileSettings] at hf
    rw [hf.2, mem_pushed]
    exact ⟨u, mem_order.2 (by rw [show List.lookup u s.docs = some d from hd]; rfl), x, hx, rfl⟩
  · cases hf

/-- C43: a change of the client's configuration pushes settings exactly if it switches the pushing on. -/
theorem C43_switched (env : Env) (s : State T) (t : Tick T)
    (h : handleEvent env (.notification .didChangeConfiguration) s = some t) :
    (∃ files, .syncFileSettings files ∈ t.outs) ↔ s.sync = false ∧ t.state.sync = true := by
  simp only [handleEvent, handleNotification, Option.map_some, Option.some.injEq] at h
  subst h
  simp only
  unfold updateConfig
  split
  · simp
  · simp only
    split
    · simp
    · split
      · simp
      · split
        · simp
        · rename_i docs _
          simp only [List.mem_cons, reduceCtorEq, false_or]
          unfold updateGlobalConfig
          split
          · simp
          · split
            · simp
            · simp only
              split
              · rename_i hs
                simp only [Bool.and_eq_true, Bool.not_eq_true'] at hs
                simp only [mem_syncFileSettings, hs.1, hs.2, true_and]
                exact ⟨fun _ => trivial, fun _ => ⟨_, rfl⟩⟩
              · rename_i hs
                simp only [Bool.and_eq_true, Bool.not_eq_true'] at hs
                simpa using hs

theorem reloadAll_changed {compile : Path → List String → Option FilePatterns.FilePatterns} {disk : Discovery.Disk}
    {us : List Url} {w : Workspaces} (h : (reloadAll compile disk us w).2 = true) :
    ∃ u ∈ us, ∃ p, urlToPath u = some p ∧ Discovery.isAirToml p = true := by
  induction us generalizing w with
  | nil => cases h
  | cons u us ih =>
    simp only [reloadAll, Bool.or_eq_true] at h
    rcases h with h | h
    · refine ⟨u, List.mem_cons_self, ?_⟩
      unfold reloadWorkspaces at h
      split at h
      · cases h
      · rename_i p hp
        split at h
        · rename_i ha; exact ⟨p, hp, ha⟩
        · cases h
    · obtain ⟨v, hv, hp⟩ := ih h
      exact ⟨v, List.mem_cons_of_mem _ hv, hp⟩

/-- C43: among the files that change on disk only an `air.toml` or `.air.toml` causes a push. -/
theorem C43_file (env : Env) (uris : List Url) (s : State T) (t : Tick T)
    (h : handleEvent env (.notification (.didChangeWatchedFiles uris)) s = some t)
    (files : List FileSettings) (hf : .syncFileSettings files ∈ t.outs) :
    ∃ u ∈ uris, ∃ p, urlToPath u = some p ∧
      (p.getLast? = some "air.toml" ∨ p.getLast? = some ".air.toml") := by
  simp only [handleEvent, handleNotification, didChangeWatchedFiles, Option.map_some,
    Option.some.injEq] at h
  subst h
  simp only at hf
  split at hf
  · rename_i hc
    obtain ⟨u, hu, p, hp, ha⟩ := reloadAll_changed hc
    refine ⟨u, hu, p, hp, ?_⟩
    simpa [Discovery.isAirToml] using ha
  · cases hf

/-! ## Concrete cases -/

/-- A client that wants settings pushed and has tabs of four columns, except for `b.R`. -/
def exAnswers (i : ConfigItem) : Json :=
  if i.section_ = "air.syncFileSettingsWithClient" then .bool true
  else if i.section_ = "editor.insertSpaces" then .bool (i.scope = some (fileUrl ["/", "p", "b.R"]))
  else if i.section_ = "editor.indentSize" then .str "tabSize"
  else if i.section_ = "editor.tabSize" then .uint 4
  else .null

def exConfigEnv (disk : Discovery.Disk) : Env := { plainEnv with disk, config := fun items => some (items.map exAnswers) }

/-- `/p/air.toml` no longer exists. -/
def exNoDisk : Discovery.Disk where
  isFile _ := false
  readToml _ := none

def exConfigured (es : List (Env × Event)) : List Out × List DocSettings :=
  let r := mainLoop es (start (T := matchTools))
  (r.outs.filter fun | .configuration _ => false | _ => true, r.state.docs.map fun d => d.2.settings)

def exSession : List (Env × Event) :=
  [(exConfigEnv (exDiskWith 100), .request 0 (.initialize [fileUrl ["/", "p"]] ⟨true, false, true, true⟩)),
   (exConfigEnv (exDiskWith 100), .notification (.didOpen (fileUrl ["/", "p", "a.R"]) 1 [])),
   (exConfigEnv (exDiskWith 100), .notification (.didOpen (fileUrl ["/", "p", "b.R"]) 1 [])),
   (exConfigEnv (exDiskWith 100), .notification (.didOpen (fileUrl ["/", "q", "c.R"]) 1 []))]

def exFile (name : String) (width : Nat) : FileSettings :=
  ⟨(fileUrl ["/", "p", name]).text, .space, 2, width⟩

/-- The documents get their own options, and a change of `air.toml` is pushed for the governed ones. -/
example :
    exConfigured (exSession ++ [(exConfigEnv (exDiskWith 60),
      .notification (.didChangeWatchedFiles [fileUrl ["/", "p", "air.toml"]]))]) =
    ([.syncFileSettings [exFile "a.R" 100], .syncFileSettings [exFile "a.R" 100],
      .syncFileSettings [exFile "b.R" 100], .syncFileSettings [],
      .syncFileSettings [exFile "b.R" 60, exFile "a.R" 60]],
     [{ indentStyle := some .tab, indentWidth := some 4 }, { indentStyle := some .space, indentWidth := some 4 },
      { indentStyle := some .tab, indentWidth := some 4 }]) := by
  decide +kernel

/-- C43: nothing is pushed when the `air.toml` of a workspace is deleted, although its documents are
governed by the editor from then on; the last thing the client was told is still the width of the
deleted file. -/
theorem C43_deletion_missed :
    let r := mainLoop exSession (start (T := matchTools))
    let r' := mainLoop (exSession ++ [(exConfigEnv exNoDisk,
      .notification (.didChangeWatchedFiles [fileUrl ["/", "p", "air.toml"]]))]) (start (T := matchTools))
    (fileSettings r.state.workspaces (fileUrl ["/", "p", "b.R"])).isSome = true ∧
    (fileSettings r'.state.workspaces (fileUrl ["/", "p", "b.R"])).isNone = true ∧
    r'.outs = r.outs ∧ r.state.sync = true := by
  decide +kernel

end Verif.Lsp
