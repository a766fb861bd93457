import Verif.Props.Config

/-!
# C64: the server keeps to what the client can do
-/

namespace Verif.Lsp

open Verif.TextChanges Verif.LineEnding Verif.LineIndex
open Verif.Resolver (Path)

variable {T : Tools}

/-- The capabilities a client offered in its `initialize` request. -/
def Offered (es : List (Env × Event)) (c : Capabilities) : Prop :=
  ∃ env id folders, (env, Event.request id (.initialize folders c)) ∈ es

/-- What may be sent to a client with the capabilities `c`. -/
def Allowed (c : Capabilities) : Out → Prop
  | .register sections watchers =>
    (sections ≠ [] → c.registerConfiguration = true) ∧ (watchers = true → c.registerWatchedFiles = true) ∧
      (sections ≠ [] ∨ watchers = true)
  | .configuration _ => c.requestConfiguration = true
  | .syncFileSettings _ => True

theorem syncFileSettings_only {s : State T} {urls : List Url} {o : Out}
    (h : o ∈ syncFileSettings s urls) : ∃ files, o = .syncFileSettings files := by
  unfold syncFileSettings at h
  split at h
  · exact ⟨_, by simpa using h⟩
  · cases h

theorem updateGlobal_outs {env : Env} {items : List Json} {s : State T} {o : Out}
    (h : o ∈ (updateGlobalConfig env items s).2.2) : ∃ files, o = .syncFileSettings files := by
  unfold updateGlobalConfig at h
  split at h
  · cases h
  · split at h
    · cases h
    · simp only at h
      split at h
      · exact syncFileSettings_only h
      · cases h

theorem updateConfig_outs {env : Env} {uris : List Url} {s : State T} {o : Out}
    (h : o ∈ (updateConfig env uris s).2.2) :
    s.capabilities.requestConfiguration = true ∧ o = .configuration (configItems uris) ∨
      ∃ files, o = .syncFileSettings files := by
  unfold updateConfig at h
  split at h
  · cases h
  · rename_i hr
    have hr : s.capabilities.requestConfiguration = true := by simpa using hr
    simp only at h
    split at h
    · exact .inl ⟨hr, by simpa using h⟩
    · split at h
      · exact .inl ⟨hr, by simpa using h⟩
      · split at h
        · exact .inl ⟨hr, by simpa using h⟩
        · simp only [List.mem_cons] at h
          rcases h with h | h
          · exact .inl ⟨hr, h⟩
          · exact .inr (updateGlobal_outs h)

/-- What one event sends, and what becomes of the capabilities. -/
theorem handleEvent_outs {env : Env} {e : Event} {s : State T} {t : Tick T}
    (h : handleEvent env e s = some t) :
    (∀ o ∈ t.outs, Allowed s.capabilities o) ∧
    (t.state.capabilities = s.capabilities ∨
      ∃ id folders, e = .request id (.initialize folders t.state.capabilities)) ∧
    (s.logging = true → t.state.logging = true) ∧
    ∀ items, .configuration items ∈ t.outs →
      ∃ uris, items = configItems uris ∧ ∀ u ∈ uris, (t.state.doc u).isSome := by
  cases e with
  | kernel => cases h; simp
  | request id r =>
    simp only [handleEvent, Option.map_eq_some_iff] at h
    obtain ⟨⟨s', a⟩, h, rfl⟩ := h
    suffices hx : _ ∧ (s.logging = true → s'.logging = true) from ⟨by simp, hx.1, hx.2, by simp⟩
    cases r with
    | «initialize» folders c =>
      simp only [handleRequest, handleInitialize] at h
      split at h
      · cases h
      · cases h; exact ⟨.inr ⟨id, folders, rfl⟩, fun _ => rfl⟩
    | shutdown => cases h; exact ⟨.inl rfl, fun h => h⟩
    | formatting v o =>
      simp only [handleRequest, Option.map_eq_some_iff] at h
      obtain ⟨a', _, h⟩ := h
      cases h; exact ⟨.inl rfl, fun h => h⟩
    | rangeFormatting v range o =>
      simp only [handleRequest, Option.map_eq_some_iff] at h
      obtain ⟨a', _, h⟩ := h
      cases h; exact ⟨.inl rfl, fun h => h⟩
    | viewFile v k => cases h; exact ⟨.inl rfl, fun h => h⟩
  | notification n =>
    simp only [handleEvent, Option.map_eq_some_iff] at h
    obtain ⟨⟨s', ok, outs⟩, h, rfl⟩ := h
    simp only
    cases n with
    | initialized =>
      simp only [handleNotification, handleInitialized] at h
      cases hr : s.capabilities.registerConfiguration <;> cases hw : s.capabilities.registerWatchedFiles <;>
        simp [hr, hw, documentSections] at h <;> obtain ⟨rfl, rfl, rfl⟩ := h <;> simp [Allowed, hr, hw]
    | didChangeWorkspaceFolders a r => cases h; simp
    | didSave u => cases h; simp
    | didClose u =>
      simp only [handleNotification, didClose] at h
      split at h <;> cases h <;> simp
    | didChange u v cs =>
      simp only [handleNotification, didChange] at h
      split at h
      · cases h; simp
      · simp only [Option.map_eq_some_iff] at h
        obtain ⟨_, _, h⟩ := h
        cases h; simp
    | didChangeConfiguration =>
      simp only [handleNotification, Option.some.injEq] at h
      have h1 := updateConfig_spec env (env.order (s.docs.map Prod.fst)) s
      rw [h] at h1
      have ho : ∀ o ∈ outs, _ := fun o ho =>
        updateConfig_outs (env := env) (uris := env.order (s.docs.map Prod.fst)) (s := s) (o := o) (by rw [h]; exact ho)
      refine ⟨fun o hm => ?_, .inl h1.2.capabilities, fun hl => h1.2.logging.trans hl, fun items hm => ?_⟩
      · rcases ho o hm with ⟨hr, rfl⟩ | ⟨files, rfl⟩
        · exact hr
        · trivial
      · rcases ho _ hm with ⟨_, hi⟩ | ⟨files, hi⟩
        · refine ⟨_, by simpa using hi, fun u hu => ?_⟩
          have hs := h1.1 u
          unfold SameDoc at hs
          have hu' := mem_order.1 hu
          show (s'.docs.lookup u).isSome
          cases hl : s'.docs.lookup u with
          | none => 
            rw [hl] at hs
            cases hk : s.docs.lookup u with
            | none => rw [hk] at hu'; cases hu'
            | some d => rw [hk] at hs; cases hs
          | some _ => rfl
        · cases hi
    | didChangeWatchedFiles uris =>
      simp only [handleNotification, didChangeWatchedFiles, Option.some.injEq, Prod.mk.injEq] at h
      obtain ⟨rfl, -, rfl⟩ := h
      refine ⟨fun o ho => ?_, .inl rfl, fun hl => hl, fun items hm => ?_⟩
      · split at ho
        · obtain ⟨files, rfl⟩ := syncFileSettings_only ho; trivial
        · cases ho
      · split at hm
        · obtain ⟨files, hf⟩ := syncFileSettings_only hm; cases hf
        · cases hm
    | didOpen u v text =>
      simp only [handleNotification, didOpen, Option.map_eq_some_iff] at h
      obtain ⟨d, hd, h⟩ := h
      generalize hu : updateConfig env [u] { s with docs := insertDoc s.docs u d } = r at h
      obtain ⟨s2, ok2, outs2⟩ := r
      have h1 := updateConfig_spec env [u] { s with docs := insertDoc s.docs u d }
      rw [hu] at h1
      have ho : ∀ o ∈ outs2, _ := fun o ho => updateConfig_outs (env := env) (uris := [u])
        (s := { s with docs := insertDoc s.docs u d }) (o := o) (by rw [hu]; exact ho)
      have key : s' = s2 ∧ ∀ o ∈ outs, o ∈ outs2 ∨ ∃ files, o = .syncFileSettings files := by
        cases ok2 with
        | false => cases h; exact ⟨rfl, fun o h => .inl h⟩
        | true =>
          cases h
          refine ⟨rfl, fun o h => ?_⟩
          rw [List.mem_append] at h
          exact h.imp id syncFileSettings_only
      obtain ⟨rfl, hsub⟩ := key
      refine ⟨fun o hm => ?_, .inl h1.2.capabilities, fun hl => h1.2.logging.trans hl, fun items hm => ?_⟩
      · rcases hsub o hm with hm | ⟨files, rfl⟩
        · rcases ho o hm with ⟨hr, rfl⟩ | ⟨files, rfl⟩
          · exact hr
          · trivial
        · trivial
      · rcases hsub _ hm with hm | ⟨files, hf⟩
        · rcases ho _ hm with ⟨_, hi⟩ | ⟨files, hi⟩
          · refine ⟨[u], by simpa using hi, fun w hw => ?_⟩
            rw [List.mem_singleton] at hw
            subst hw
            have hs := h1.1 w
            unfold SameDoc at hs
            simp only [lookup_insert, if_true, Option.map_some] at hs
            show (s'.docs.lookup w).isSome
            cases hl : s'.docs.lookup w with
            | none => rw [hl] at hs; cases hs
            | some _ => rfl
          · cases hi
        · cases hf

theorem run_capabilities {es : List (Env × Event)} {s : State T} {rs : List (Nat × Answer Response)}
    {os : List Out} (h : Runs start es s rs os) :
    s.capabilities = ⟨false, false, false, false⟩ ∨ Offered es s.capabilities := by
  have mono : ∀ {es : List (Env × Event)} {x : Env × Event} {c : Capabilities}, Offered es c → Offered (es ++ [x]) c :=
    fun ⟨env, id, folders, h⟩ => ⟨env, id, folders, List.mem_append_left _ h⟩
  induction h with
  | nil => exact .inl rfl
  | @snoc es s' rs os env e t hs h ih =>
    rcases (handleEvent_outs h).2.1 with hc | ⟨id, folders, hc⟩
    · rw [hc]
      exact ih.imp id mono
    · exact .inr ⟨env, id, folders, by simp [hc]⟩

/-- C64: whatever the server sends on its own, the client has said in its `initialize` request that it
understands it; before that nothing is sent except for pushed settings (which `C43_pushed` is about). -/
theorem C64_only_offered {es : List (Env × Event)} {s : State T} {rs : List (Nat × Answer Response)}
    {os : List Out} (h : Runs start es s rs os) (o : Out) (ho : o ∈ os) :
    (∃ files, o = .syncFileSettings files) ∨ ∃ c, Offered es c ∧ Allowed c o := by
  have mono : ∀ {es : List (Env × Event)} {x : Env × Event} {c : Capabilities}, Offered es c → Offered (es ++ [x]) c :=
    fun ⟨env, id, folders, h⟩ => ⟨env, id, folders, List.mem_append_left _ h⟩
  induction h with
  | nil => cases ho
  | @snoc es s' rs os env e t hs h ih =>
    rw [List.mem_append] at ho
    rcases ho with ho | ho
    · rcases ih ho with h | ⟨c, hc, ha⟩
      · exact .inl h
      · exact .inr ⟨c, mono hc, ha⟩
    · have ha := (handleEvent_outs h).1 o ho
      rcases run_capabilities hs with hc | hc
      · rw [hc] at ha
        cases o with
        | syncFileSettings files => exact .inl ⟨files, rfl⟩
        | configuration items => cases ha
        | register sections w =>
          obtain ⟨h1, h2, h3⟩ := ha
          rcases h3 with h3 | h3
          · exact absurd (h1 h3) (by simp)
          · exact absurd (h2 h3) (by simp)
      · exact .inr ⟨_, mono hc, ha⟩

/-- C64: a configuration request is about the server's own sections and about documents that are open. -/
theorem C64_asked (env : Env) (e : Event) (s : State T) (t : Tick T) (h : handleEvent env e s = some t)
    (items : List ConfigItem) (hi : .configuration items ∈ t.outs) (i : ConfigItem) (him : i ∈ items) :
    ∀ u, i.scope = some u → ∃ d, t.state.doc u = some d := by
  intro u hu
  obtain ⟨uris, rfl, hd⟩ := (handleEvent_outs h).2.2.2 items hi
  simp only [configItems, List.mem_append, List.mem_map, List.mem_flatMap] at him
  rcases him with (⟨x, _, rfl⟩ | ⟨v, hv, x, _, rfl⟩) | ⟨x, _, rfl⟩
  · cases hu
  · cases hu; exact Option.isSome_iff_exists.1 (hd u hv)
  · cases hu

/-- C64: once the client is initialised the server registers for everything the client can register for, in one
message, and for nothing else. If the client can report changes of its configuration, then the server registers for
every section it ever asks for. -/
theorem C64_registered (env : Env) (s : State T) :
    ∃ t, handleEvent env (.notification .initialized) s = some t ∧ t.state = s ∧
      ((s.capabilities.registerConfiguration = false ∧ s.capabilities.registerWatchedFiles = false ∧ t.outs = []) ∨
        ((s.capabilities.registerConfiguration = true ∨ s.capabilities.registerWatchedFiles = true) ∧
          ∃ sections, t.outs = [.register sections s.capabilities.registerWatchedFiles] ∧
            (s.capabilities.registerConfiguration = false → sections = []) ∧
            (s.capabilities.registerConfiguration = true →
              ∀ (env' : Env) (e : Event) (s' : State T) (t' : Tick T), handleEvent env' e s' = some t' →
                ∀ items, .configuration items ∈ t'.outs → ∀ i ∈ items, i.section_ ∈ sections))) := by
  have hall : ∀ (env' : Env) (e : Event) (s' : State T) (t' : Tick T), handleEvent env' e s' = some t' →
      ∀ items, .configuration items ∈ t'.outs → ∀ i ∈ items,
        i.section_ ∈ documentSections ++ diagnosticsSections ++ globalSections := by
    intro env' e s' t' h items hi i him
    obtain ⟨uris, rfl, _⟩ := (handleEvent_outs h).2.2.2 items hi
    simp only [configItems, List.mem_append, List.mem_map, List.mem_flatMap] at him ⊢
    rcases him with (⟨x, hx, rfl⟩ | ⟨v, hv, x, hx, rfl⟩) | ⟨x, hx, rfl⟩
    · exact .inl (.inr hx)
    · exact .inl (.inl hx)
    · exact .inr hx
  simp only [handleEvent, handleNotification, handleInitialized]
  cases hr : s.capabilities.registerConfiguration with
  | true =>
    refine ⟨_, rfl, rfl, .inr ⟨.inl rfl, _, rfl, by simp, fun _ => hall⟩⟩
  | false =>
    cases hw : s.capabilities.registerWatchedFiles with
    | true => exact ⟨_, rfl, rfl, .inr ⟨.inr rfl, _, rfl, by simp, by simp⟩⟩
    | false => exact ⟨_, rfl, rfl, .inl ⟨rfl, rfl, rfl⟩⟩

/-- C64: the answer to `initialize` names the encoding of positions, UTF-8 exactly if the client offers it. Every
document opened from then on counts its columns in this encoding. -/
theorem C64_encoding (env : Env) (id : Nat) (folders : List Url) (c : Capabilities) (s : State T) (t : Tick T)
    (h : handleEvent env (.request id (.initialize folders c)) s = some t) :
    ∃ enc, t.response = some (id, some (.initialize enc)) ∧ (enc = .utf8 ↔ c.utf8 = true) ∧
      (enc ≠ .utf8 → enc = .utf16) ∧
      ∀ es s' rs os, Runs t.state es s' rs os → s'.encoding = enc ∧
        (s.docs = [] → ∀ u d, s'.doc u = some d → d.encoding = enc) := by
  simp only [handleEvent, handleRequest, handleInitialize] at h
  split at h
  · cases h
  · rename_i hl
    cases h
    refine ⟨_, rfl, by cases c.utf8 <;> simp, by cases c.utf8 <;> simp, ?_⟩
    intro es s' rs os hr
    have key : s'.logging = true ∧ s'.encoding = (if c.utf8 then Encoding.utf8 else .utf16) ∧
        (s.docs = [] → ∀ u d, s'.doc u = some d → d.encoding = if c.utf8 then Encoding.utf8 else .utf16) := by
      clear hl
      induction hr with
      | nil => exact ⟨rfl, rfl, fun he u d hd => by simp [State.doc, he] at hd⟩
      | @snoc es s1 rs os env' e t hs h ih =>
        obtain ⟨h1, h2, h3⟩ := ih
        obtain ⟨h4, h5⟩ := handleEvent_spec h
        refine ⟨(handleEvent_outs h).2.2.1 h1, ?_, fun he u d hd => ?_⟩
        · rw [h4, ← h2]
          cases e with
          | request id r =>
            cases r with
            | «initialize» f c' => simp [handleEvent, handleRequest, handleInitialize, h1] at h
            | _ => rfl
          | _ => rfl
        · have h6 := h5 u
          have h7 : (t.state.doc u).map Document.core = some d.core := by rw [hd]; rfl
          rw [h7] at h6
          generalize ho : (s1.doc u).map Document.core = old at h6
          generalize hn : some d.core = new at h6
          have he' : ∀ x, (s1.doc u).map Document.core = some x → x.encoding = if c.utf8 then Encoding.utf8 else .utf16 := by
            intro x hx
            rw [Option.map_eq_some_iff] at hx
            obtain ⟨y, hy, rfl⟩ := hx
            exact h3 he u y hy
          cases h6 with
          | opened hx =>
            have hd' := congrArg Document.encoding (Option.some.inj hn)
            exact hd'.trans ((new_spec hx).2.2.1.trans h2)
          | changed hx =>
            have hd' := congrArg Document.encoding (Option.some.inj hn)
            exact hd'.trans ((change_spec hx).2.2.2.1.trans (he' _ ho))
          | changedUnknown => cases hn
          | closed => cases hn
          | other => exact he' d.core (by rw [ho, hn])
    exact ⟨key.2.1, key.2.2⟩

/-! ## Concrete cases -/

/-- A client that can register for files but not for its configuration, and answers questions. -/
example : (mainLoop (exSession ++ [(plainEnv, .notification .initialized)]) (start (T := matchTools))).outs.getLast? =
    some (.register [] true) := by
  decide +kernel

/-- A client that can do nothing of this kind hears nothing. -/
example : (mainLoop ([(plainEnv, .request 0 (.initialize [] ⟨false, false, false, false⟩)), (plainEnv, .notification .initialized),
      (plainEnv, .notification (.didOpen (fileUrl ["/", "p", "a.R"]) 1 []))]) (start (T := matchTools))).outs = [] := by
  decide +kernel

end Verif.Lsp
