import Verif.Props.Documents
import Verif.Props.Workspaces

/-!
# C23: the main loop; C51: what ends the server
-/

namespace Verif.Lsp

open Verif.TextChanges Verif.LineEnding Verif.LineIndex
open Verif.Resolver (Path)
open Verif.Discovery (Absolute)
open Verif.FilePatterns (FilePatterns)
open Verif.Settings (Settings)

variable {T : Tools}

/-! ## C23 -/

/-- The requests of a history, in order. -/
def requestIds (es : List (Env × Event)) : List Nat :=
  es.filterMap fun e => match e.2 with
    | .request id _ => some id
    | _ => none

def HasShutdown (es : List (Env × Event)) : Prop :=
  ∃ e ∈ es, ∃ id, e.2 = .request id .shutdown

/-- How the loop stopped: everything is done and it waits; or the last message was the first
shutdown request; or the next message makes its handler panic. -/
inductive Stopped (l : Loop T) : List (Env × Event) → List (Env × Event) → Prop
  | waiting {done} (h : l.ending = .waiting) (hn : ¬ HasShutdown done) : Stopped l done []
  | shutdown {done rest env id} (h : l.ending = .shutdown) (hn : ¬ HasShutdown done) :
      Stopped l (done ++ [(env, .request id .shutdown)]) rest
  | crashed {done rest env e} (h : l.ending = .crashed) (hn : ¬ HasShutdown done)
      (hc : handleEvent env e l.state = none) : Stopped l done ((env, e) :: rest)

theorem shutdown_iff {env : Env} {e : Event} {s : State T} {t : Tick T}
    (h : handleEvent env e s = some t) : t.shutdown = true ↔ ∃ id, e = .request id .shutdown := by
  cases e with
  | kernel => cases h; simp
  | notification n =>
    simp only [handleEvent, Option.map_eq_some_iff] at h
    obtain ⟨_, _, rfl⟩ := h
    simp
  | request id r =>
    simp only [handleEvent, Option.map_eq_some_iff] at h
    obtain ⟨_, _, rfl⟩ := h
    cases r <;> simp

theorem response_iff {env : Env} {e : Event} {s : State T} {t : Tick T}
    (h : handleEvent env e s = some t) : t.response.toList.map Prod.fst = requestIds [(env, e)] := by
  cases e with
  | kernel => cases h; rfl
  | notification n =>
    simp only [handleEvent, Option.map_eq_some_iff] at h
    obtain ⟨_, _, rfl⟩ := h
    rfl
  | request id r =>
    simp only [handleEvent, Option.map_eq_some_iff] at h
    obtain ⟨_, _, rfl⟩ := h
    rfl

/-- C23: the loop handles a prefix of the messages, in their order, each in the state left by the one
before (`Runs`); each request among them gets exactly one response, in order, and nothing else is
answered. It handles everything up to and including the first shutdown request and nothing after it,
unless a handler panics; handlers that return an error do not stop it. -/
theorem C23_loop (events : List (Env × Event)) (s : State T) :
    ∃ done rest, events = done ++ rest ∧
      Runs s done (mainLoop events s).state (mainLoop events s).responses (mainLoop events s).outs ∧
      (mainLoop events s).responses.map Prod.fst = requestIds done ∧
      Stopped (mainLoop events s) done rest := by
  induction events generalizing s with
  | nil => exact ⟨[], [], rfl, .nil s, rfl, .waiting rfl (by simp [HasShutdown])⟩
  | cons x events ih =>
    obtain ⟨env, e⟩ := x
    cases h : handleEvent env e s with
    | none =>
      simp only [mainLoop, h]
      exact ⟨[], (env, e) :: events, rfl, .nil s, rfl, .crashed rfl (by simp [HasShutdown]) h⟩
    | some t =>
      simp only [mainLoop, h]
      by_cases hs : t.shutdown = true
      · rw [if_pos hs]
        obtain ⟨id, rfl⟩ := (shutdown_iff h).1 hs
        refine ⟨[(env, .request id .shutdown)], events, rfl, ?_, response_iff h, ?_⟩
        · simpa using Runs.cons h (.nil _)
        · exact .shutdown (done := []) rfl (by simp [HasShutdown])
      · rw [if_neg hs]
        obtain ⟨done, rest, rfl, h1, h2, h3⟩ := ih t.state
        have hno : ∀ id, e ≠ .request id .shutdown := fun id he =>
          hs ((shutdown_iff h).2 ⟨id, he⟩)
        have hcons : ∀ {l : List (Env × Event)}, ¬ HasShutdown l → ¬ HasShutdown ((env, e) :: l) := by
          rintro l hl ⟨x, hx, id, hi⟩
          rcases List.mem_cons.1 hx with rfl | hx
          · exact hno id hi
          · exact hl ⟨x, hx, id, hi⟩
        refine ⟨(env, e) :: done, rest, rfl, Runs.cons h h1, ?_, ?_⟩
        · rw [List.map_append, response_iff h, h2]
          simp only [requestIds, List.filterMap_cons, List.filterMap_nil]
          split <;> rfl
        · generalize hl : mainLoop (done ++ rest) t.state = l at h3
          cases h3 with
          | waiting h hn => exact .waiting h (hcons hn)
          | @shutdown done' _ env' id h hn =>
            exact .shutdown (done := (env, e) :: done') h (hcons hn)
          | crashed h hn hc => exact .crashed h (hcons hn) hc

theorem initialized_state {env : Env} {s s' : State T} {ok : Bool} {outs : List Out}
    (h : handleInitialized env s = some (s', ok, outs)) : s' = s := by
  unfold handleInitialized at h
  simp only at h
  split at h <;> (split at h <;> (simp only [Option.some.injEq, Prod.mk.injEq] at h; exact h.1.symm))

/-- C23: a handler that fails changes nothing but client options and, if opening a document fails while
asking for its configuration, the document that was opened. -/
theorem C23_failure {env : Env} {n : Notification} {s s' : State T} {outs : List Out}
    (h : handleNotification env n s = some (s', false, outs)) :
    s'.workspaces = s.workspaces ∧ s'.encoding = s.encoding ∧ s'.capabilities = s.capabilities ∧
    s'.logging = s.logging ∧
    ∀ u, (∀ version text, n ≠ .didOpen u version text) →
      (s'.doc u).map (fun d => (d.contents, d.index, d.endings, d.encoding, d.parse, d.version)) =
        (s.doc u).map (fun d => (d.contents, d.index, d.endings, d.encoding, d.parse, d.version)) := by
  have hdoc : ∀ {u : Url}, SameDoc s.docs s'.docs u →
      (s'.doc u).map (fun d => (d.contents, d.index, d.endings, d.encoding, d.parse, d.version)) =
        (s.doc u).map (fun d => (d.contents, d.index, d.endings, d.encoding, d.parse, d.version)) := by
    intro u hu
    have h5 : ∀ o : Option (Document T),
        o.map (fun d => (d.contents, d.index, d.endings, d.encoding, d.parse, d.version)) =
        (o.map Document.core).map
          (fun d => (d.contents, d.index, d.endings, d.encoding, d.parse, d.version)) := by
      intro o; cases o <;> rfl
    rw [h5, h5 (s.doc u)]
    exact congrArg _ hu
  cases n with
  | initialized =>
    obtain rfl := initialized_state h
    exact ⟨rfl, rfl, rfl, rfl, fun u _ => rfl⟩
  | didChangeWorkspaceFolders added removed => cases h
  | didChangeConfiguration =>
    simp only [handleNotification, Option.some.injEq] at h
    have h1 := updateConfig_spec env (env.order (s.docs.map Prod.fst)) s
    rw [h] at h1
    exact ⟨h1.2.workspaces, h1.2.encoding, h1.2.capabilities, h1.2.logging, fun u _ => hdoc (h1.1 u)⟩
  | didChangeWatchedFiles uris => cases h
  | didSave v => cases h
  | didOpen v version text =>
    simp only [handleNotification, didOpen, Option.map_eq_some_iff] at h
    obtain ⟨d, hd, h⟩ := h
    have h1 := updateConfig_spec env [v] { s with docs := insertDoc s.docs v d }
    have hs' : s' = (updateConfig env [v] { s with docs := insertDoc s.docs v d }).1 := by
      split at h
      · rename_i hx; rw [hx]; cases h; rfl
      · cases h
    rw [← hs'] at h1
    refine ⟨h1.2.workspaces, h1.2.encoding, h1.2.capabilities, h1.2.logging, fun u hu => hdoc ?_⟩
    have huv : u ≠ v := by rintro rfl; exact hu _ _ rfl
    have := h1.1 u
    unfold SameDoc at this ⊢
    rw [this, lookup_insert, if_neg huv]
  | didChange v version changes =>
    simp only [handleNotification, didChange] at h
    split at h
    · cases h; exact ⟨rfl, rfl, rfl, rfl, fun u _ => rfl⟩
    · rw [Option.map_eq_some_iff] at h
      obtain ⟨_, _, h⟩ := h
      cases h
  | didClose v =>
    simp only [handleNotification, didClose] at h
    split at h
    · cases h; exact ⟨rfl, rfl, rfl, rfl, fun u _ => rfl⟩
    · cases h

/-! ## The workspaces in the history -/

/-- The events that concern workspaces, in order; `initialize` starts afresh. -/
def wsHistory : List (Env × Event) → List WsEvent :=
  List.foldl (fun acc e => match e.2 with
    | .request _ (.initialize folders _) => folders.map (.opened e.1.disk)
    | .notification (.didChangeWorkspaceFolders added removed) =>
      acc ++ (added.map (.opened e.1.disk) ++ removed.map .closed)
    | .notification (.didChangeWatchedFiles uris) => acc ++ uris.map (.fileChanged e.1.disk)
    | _ => acc) []

theorem reloadAll_eq (compile : Path → List String → Option FilePatterns) (disk : Discovery.Disk)
    (uris : List Url) (w : Workspaces) :
    (reloadAll compile disk uris w).1 = wsRun compile w (uris.map (.fileChanged disk)) := by
  induction uris generalizing w with
  | nil => rfl
  | cons u us ih => simp only [reloadAll, ih]; rfl

theorem wsRun_append (compile : Path → List String → Option FilePatterns) (w : Workspaces)
    (a b : List WsEvent) : wsRun compile w (a ++ b) = wsRun compile (wsRun compile w a) b :=
  List.foldl_append

theorem wsRun_opened (compile : Path → List String → Option FilePatterns) (disk : Discovery.Disk)
    (us : List Url) (w : Workspaces) :
    wsRun compile w (us.map (.opened disk)) = us.foldl (openWorkspaceFolder compile disk) w := by
  simp only [wsRun, List.foldl_map]; rfl

theorem wsRun_closed (compile : Path → List String → Option FilePatterns)
    (us : List Url) (w : Workspaces) :
    wsRun compile w (us.map .closed) = us.foldl closeWorkspaceFolder w := by
  simp only [wsRun, List.foldl_map]; rfl

/-- C26: the workspaces of the server are those of the history of events it handled; together with
`C26_settings` and `C26_other_urls` this determines the settings of every document at every time. -/
theorem C26_server {es : List (Env × Event)} {s : State T} {rs : List (Nat × Answer Response)}
    {os : List Out} (h : Runs start es s rs os) :
    s.workspaces = wsRun T.compile noWorkspaces (wsHistory es) := by
  induction h with
  | nil => rfl
  | @snoc es s' rs os env e t hs h ih =>
    rw [wsHistory, List.foldl_append, ← wsHistory]
    cases e with
    | kernel => cases h; exact ih
    | notification n =>
      simp only [handleEvent, Option.map_eq_some_iff] at h
      obtain ⟨⟨s2, ok, outs⟩, h, rfl⟩ := h
      cases n with
      | initialized =>
        obtain rfl := initialized_state h
        exact ih
      | didChangeWorkspaceFolders added removed =>
        cases h
        simp only [List.foldl_cons, List.foldl_nil, wsRun_append, wsRun_opened, wsRun_closed, ← ih]
      | didChangeConfiguration =>
        simp only [handleNotification, Option.some.injEq] at h
        have h1 := updateConfig_spec env (env.order (s'.docs.map Prod.fst)) s'
        rw [h] at h1
        exact h1.2.workspaces.trans ih
      | didChangeWatchedFiles uris =>
        cases h
        simp only [List.foldl_cons, List.foldl_nil, wsRun_append, reloadAll_eq, ← ih]
      | didSave v => cases h; exact ih
      | didOpen v version text =>
        simp only [handleNotification, didOpen, Option.map_eq_some_iff] at h
        obtain ⟨d, hd, h⟩ := h
        have h1 := updateConfig_spec env [v] { s' with docs := insertDoc s'.docs v d }
        have hs' : s2 = (updateConfig env [v] { s' with docs := insertDoc s'.docs v d }).1 := by
          split at h
          · rename_i hx; rw [hx]; cases h; rfl
          · rename_i hx; rw [hx]; cases h; rfl
        rw [← hs'] at h1
        exact h1.2.workspaces.trans ih
      | didChange v version changes =>
        simp only [handleNotification, didChange] at h
        split at h
        · cases h; exact ih
        · rw [Option.map_eq_some_iff] at h
          obtain ⟨_, _, h⟩ := h
          cases h; exact ih
      | didClose v =>
        simp only [handleNotification, didClose] at h
        split at h
        · cases h; exact ih
        · cases h; exact ih
    | request id r =>
      simp only [handleEvent, Option.map_eq_some_iff] at h
      obtain ⟨⟨s2, a⟩, h, rfl⟩ := h
      cases r with
      | «initialize» folders c =>
        simp only [handleRequest, handleInitialize] at h
        split at h
        · cases h
        · cases h
          simp only [List.foldl_cons, List.foldl_nil, wsRun_opened]
          rfl
      | shutdown => cases h; exact ih
      | formatting v o =>
        simp only [handleRequest, Option.map_eq_some_iff] at h
        obtain ⟨a', _, h⟩ := h
        cases h; exact ih
      | rangeFormatting v range o =>
        simp only [handleRequest, Option.map_eq_some_iff] at h
        obtain ⟨a', _, h⟩ := h
        cases h; exact ih
      | viewFile v k => cases h; exact ih

/-! ## C51: what ends the server, and what does not -/

/-- The settings known for a folder were read from some disk. -/
def FromDisk (compile : Path → List String → Option FilePatterns) (m : Known) : Prop :=
  ∀ p d s, m p = some (some (d, s)) →
    d <+: p ∧ d ≠ [] ∧ ∃ disk, Discovery.SettingsIn compile disk d = some s

theorem lookup_fromDisk {compile : Path → List String → Option FilePatterns} {disk : Discovery.Disk}
    {p d : Path} {s : Settings} (h : Lookup compile disk p (some (some (d, s)))) :
    d <+: p ∧ d ≠ [] ∧ ∃ disk, Discovery.SettingsIn compile disk d = some s := by
  cases h with
  | found hd hs => exact ⟨hd.2.1, hd.1, disk, hs⟩

theorem specStep_fromDisk {compile : Path → List String → Option FilePatterns} {m m' : Known}
    {e : WsEvent} (h : SpecStep compile m e m') (hm : FromDisk compile m) : FromDisk compile m' := by
  cases h with
  | openedOk hu hl =>
    intro p d s hp
    simp only at hp
    split at hp
    · rename_i h; cases hp; rw [h]; exact lookup_fromDisk hl
    · exact hm p d s hp
  | openedInvalid => exact hm
  | openedOther => exact hm
  | closed hu =>
    intro p d s hp
    simp only at hp
    split at hp
    · cases hp
    · exact hm p d s hp
  | closedOther => exact hm
  | changed hu ht hin hout =>
    rename_i disk _ q
    intro p d s hp
    by_cases h : p <+: q ∧ m p ≠ none
    · obtain ⟨x, h1, h2⟩ := hin p h.1 h.2
      rw [hp] at h2
      cases x with
      | none => cases h2
      | some x =>
        simp only [Option.getD_some, Option.some.injEq] at h2
        subst h2
        exact lookup_fromDisk h1
    · rw [hout p h] at hp; exact hm p d s hp
  | changedOther => exact hm

theorem specRun_fromDisk {compile : Path → List String → Option FilePatterns} {m m' : Known}
    {es : List WsEvent} (h : SpecRun compile m es m') (hm : FromDisk compile m) :
    FromDisk compile m' := by
  induction h with
  | nil => exact hm
  | cons h hs ih => exact ih (specStep_fromDisk h hm)

theorem exclude_no_panic {s : Settings} {path d : Path} (hp : Absolute path) (hd : d <+: path)
    (hne : d ≠ []) (hroot : ∀ fp, s.exclude = some fp → fp.root = d) (isDir : Bool) :
    Discovery.anyExcludeMatchedPathOrAnyParents path isDir s ≠ none := by
  simp only [Discovery.anyExcludeMatchedPathOrAnyParents]
  cases he : s.exclude with
  | none => simp
  | some fp =>
    simp only [FilePatterns.FilePatterns.matchedPathOrAnyParents]
    by_cases hemp : fp.isEmpty = true
    · rw [if_pos hemp]; simp
    · rw [if_neg hemp]
      have : (fp.strip path).head? ≠ some "/" := by
        unfold FilePatterns.FilePatterns.strip
        rw [hroot fp he, if_pos (List.isPrefixOf_iff_prefix.mpr hd)]
        obtain ⟨names, rfl, hnames⟩ := hp
        obtain ⟨t, ht⟩ := hd
        cases d with
        | nil => exact absurd rfl hne
        | cons c d =>
          simp only [List.cons_append, List.cons.injEq] at ht
          obtain ⟨rfl, rfl⟩ := ht
          simp only [List.length_cons, List.drop_succ_cons, List.drop_left]
          intro hh
          cases t with
          | nil => cases hh
          | cons x t =>
            simp only [List.head?_cons, Option.some.injEq] at hh
            subst hh
            exact hnames (by simp)
      rw [if_neg this]; simp

/-- URLs for which the exclusions are checked with settings that belong to the path: files, and
everything without a path; of the others only `untitled` ones are critical. -/
def PlainUrl (u : Url) : Prop :=
  (u.scheme = "file" → ∀ p, u.filePath = some p → Absolute p) ∧
  (u.scheme = "untitled" → u.filePath = none)

/-- The contract of the external pattern compiler: it keeps the root it is given. -/
def KeepsRoot (compile : Path → List String → Option FilePatterns) : Prop :=
  ∀ root patterns fp, compile root patterns = some fp → fp.root = root

theorem settings_no_panic (hc : KeepsRoot T.compile) {es : List (Env × Event)} {s : State T}
    {rs : List (Nat × Answer Response)} {os : List Out} (h : Runs start es s rs os) {u : Url}
    (hu : PlainUrl u) {path : Path} (hp : u.filePath = some path) (lang : String) :
    isDocumentExcluded path (settingsForUrl s.workspaces u).settings lang ≠ none := by
  have key : Discovery.anyExcludeMatchedPathOrAnyParents path false
      (settingsForUrl s.workspaces u).settings ≠ none := by
    have hdef : Discovery.anyExcludeMatchedPathOrAnyParents path false
        (WorkspaceSettings.fallback Settings.default).settings ≠ none := by
      simp [WorkspaceSettings.settings, Discovery.anyExcludeMatchedPathOrAnyParents,
        Settings.Settings.default]
    rw [C26_server h]
    by_cases hf : u.scheme = "file"
    · obtain ⟨m, h1, h2, h3, h4⟩ := C26_settings T.compile (wsHistory es) u path ⟨hf, hp⟩
      have hfd := specRun_fromDisk ((h1 m).2 rfl) (fun p d s h => by cases h)
      by_cases hi : ∃ p, Innermost m path p
      · obtain ⟨p, hi⟩ := hi
        cases hm : m p with
        | none => exact absurd hm hi.2.1
        | some o =>
          cases o with
          | none => rw [h3 p hi hm]; exact hdef
          | some ds =>
            obtain ⟨d, st⟩ := ds
            rw [h2 p d st hi hm]
            obtain ⟨g1, g2, disk, g3⟩ := hfd p d st hm
            exact exclude_no_panic (hu.1 hf path hp) (g1.trans hi.1) g2
              (fun fp hfp => Discovery.settingsIn_root hc g3 hfp) false
      · rw [h4 ?_]
        · exact hdef
        · intro p hpp
          apply Classical.byContradiction
          intro hne
          apply hi
          -- the longest open prefix
          have : ∀ n, ∀ p, p <+: path → m p ≠ none → path.length - p.length ≤ n →
              ∃ p, Innermost m path p := by
            intro n
            induction n with
            | zero =>
              intro p h1 h2 h3
              refine ⟨p, h1, h2, fun q hq _ => ?_⟩
              have := hq.length_le
              omega
            | succ n ih =>
              intro p h1 h2 h3
              by_cases hq : ∃ q, q <+: path ∧ m q ≠ none ∧ p.length < q.length
              · obtain ⟨q, hq1, hq2, hq3⟩ := hq
                have := hq1.length_le
                exact ih q hq1 hq2 (by omega)
              · refine ⟨p, h1, h2, fun q hq1 hq2 => ?_⟩
                apply Classical.byContradiction
                intro hlt
                exact hq ⟨q, hq1, hq2, by omega⟩
          exact this _ p hpp hne (Nat.le_refl _)
    · by_cases hun : u.scheme = "untitled"
      · rw [hu.2 hun] at hp; cases hp
      · obtain ⟨m, hm, _⟩ := wsRun_rep (compile := T.compile) (wsHistory es) noWorkspaces_rep
        rw [(C26_other_urls T.compile (wsHistory es) u (fun p hp => hf hp.1) m hm).2 (.inl hun)]
        exact hdef
  unfold isDocumentExcluded
  cases hx : Discovery.anyExcludeMatchedPathOrAnyParents path false
      (settingsForUrl s.workspaces u).settings with
  | none => exact absurd hx key
  | some b =>
    cases b
    · simp only
      split
      · simp
      · split <;> simp
    · simp

/-- What a client that keeps to the protocol may send after the history `es`: `initialize` only once,
changes that fit the text the client gave and do not go back in version, formatting requests for plain
URLs, with a selection that lies in the text. -/
def Proper (es : List Event) : Event → Prop
  | .request _ (.initialize _ _) => ∀ id folders c, .request id (.initialize folders c) ∉ es
  | .notification (.didChange u version changes) => ∃ enc o, Buffer u es enc o ∧
      ∀ enc' t v, o = some (enc', t, v) → v ≤ version ∧ ∃ t', Steps enc' t changes t'
  | .request _ (.formatting u _) => PlainUrl u
  | .request _ (.rangeFormatting u range _) => PlainUrl u ∧ ∃ enc o, Buffer u es enc o ∧
      ∀ enc' t v, o = some (enc', t, v) → ∃ a m b, t = a ++ m ++ b ∧
        range = { start := posOf enc' a, stop := posOf enc' (a ++ m) }
  | _ => True

theorem logging_iff {es : List (Env × Event)} {s : State T} {rs : List (Nat × Answer Response)}
    {os : List Out} (h : Runs start es s rs os) (hl : s.logging = true) :
    ∃ id folders c, .request id (.initialize folders c) ∈ es.map Prod.snd := by
  induction h with
  | nil => cases hl
  | @snoc es s' rs os env e t hs h ih =>
    have done : s'.logging = true →
        ∃ id folders c, .request id (.initialize folders c) ∈ (es ++ [(env, e)]).map Prod.snd := by
      intro h
      obtain ⟨id, folders, c, hm⟩ := ih h
      exact ⟨id, folders, c, by rw [List.map_append]; exact List.mem_append_left _ hm⟩
    cases e with
    | kernel => cases h; exact done hl
    | notification n =>
      simp only [handleEvent, Option.map_eq_some_iff] at h
      obtain ⟨⟨s2, ok, outs⟩, h, rfl⟩ := h
      simp only at hl
      apply done
      cases n with
      | initialized => obtain rfl := initialized_state h; exact hl
      | didChangeWorkspaceFolders added removed => cases h; exact hl
      | didChangeConfiguration =>
        simp only [handleNotification, Option.some.injEq] at h
        have h1 := updateConfig_spec env (env.order (s'.docs.map Prod.fst)) s'
        rw [h] at h1
        rw [← h1.2.logging]; exact hl
      | didChangeWatchedFiles uris => cases h; exact hl
      | didSave v => cases h; exact hl
      | didOpen v version text =>
        simp only [handleNotification, didOpen, Option.map_eq_some_iff] at h
        obtain ⟨d, hd, h⟩ := h
        have h1 := updateConfig_spec env [v] { s' with docs := insertDoc s'.docs v d }
        have hs' : s2 = (updateConfig env [v] { s' with docs := insertDoc s'.docs v d }).1 := by
          split at h
          · rename_i hx; rw [hx]; cases h; rfl
          · rename_i hx; rw [hx]; cases h; rfl
        rw [← hs'] at h1
        have := h1.2.logging
        rw [hl] at this
        exact this.symm
      | didChange v version changes =>
        simp only [handleNotification, didChange] at h
        split at h
        · cases h; exact hl
        · rw [Option.map_eq_some_iff] at h
          obtain ⟨_, _, h⟩ := h
          cases h; exact hl
      | didClose v =>
        simp only [handleNotification, didClose] at h
        split at h
        · cases h; exact hl
        · cases h; exact hl
    | request id r =>
      cases r with
      | «initialize» folders c => exact ⟨id, folders, c, by simp⟩
      | shutdown => cases h; exact done hl
      | formatting v o =>
        simp only [handleEvent, handleRequest, Option.map_eq_some_iff] at h
        obtain ⟨_, ⟨_, _, rfl⟩, rfl⟩ := h
        exact done hl
      | rangeFormatting v range o =>
        simp only [handleEvent, handleRequest, Option.map_eq_some_iff] at h
        obtain ⟨_, ⟨_, _, rfl⟩, rfl⟩ := h
        exact done hl
      | viewFile v k => cases h; exact done hl

theorem formattable_options (u v : Url) (o : FormattingOptions) (s : State T) :
    formattable u (didChangeFormattingOptions v o s) = none ↔ formattable u s = none := by
  have h := sameDoc_formattingOptions v o s u
  unfold SameDoc at h
  simp only [formattable, State.doc]
  have hw : (didChangeFormattingOptions v o s).workspaces = s.workspaces := rfl
  rw [hw]
  cases h1 : s.docs.lookup u with
  | none =>
    rw [h1] at h
    simp only [Option.map_none, Option.map_eq_none_iff] at h
    simp [h]
  | some d =>
    rw [h1] at h
    simp only [Option.map_some, Option.map_eq_some_iff] at h
    obtain ⟨d', h2, h3⟩ := h
    have hp : d'.core.parse = d.core.parse := congrArg Document.parse h3
    simp only [Document.core] at hp
    rw [h2]
    simp only [hp]
    split
    · simp
    · simp
    · split <;> simp

theorem formattable_no_panic (hc : KeepsRoot T.compile) {es : List (Env × Event)} {s : State T}
    {rs : List (Nat × Answer Response)} {os : List Out} (h : Runs start es s rs os) {u : Url}
    (hu : PlainUrl u) : formattable u s ≠ none := by
  unfold formattable excludedFromFormatting
  split
  · simp
  · simp only
    cases hp : u.filePath with
    | none => simp only; split <;> simp
    | some path =>
      simp only
      cases hx : isDocumentExcluded path (settingsForUrl s.workspaces u).settings "r" with
      | none => exact absurd hx (settings_no_panic hc h hu hp "r")
      | some b =>
        cases b
        · simp only; split <;> simp
        · simp

/-- C51: an event that a proper client sends does not end the server, whatever happened before and
whatever other documents, configurations and files there are. -/
theorem C51_survives (hc : KeepsRoot T.compile) {es : List (Env × Event)} {s : State T}
    {rs : List (Nat × Answer Response)} {os : List Out} (h : Runs start es s rs os) (env : Env)
    (e : Event) (hp : Proper (es.map Prod.snd) e) : handleEvent env e s ≠ none := by
  cases e with
  | kernel => simp [handleEvent]
  | notification n =>
    simp only [handleEvent, ne_eq, Option.map_eq_none_iff]
    cases n with
    | initialized =>
      simp only [handleNotification, handleInitialized]
      split <;> split <;> simp
    | didChangeWorkspaceFolders added removed => simp [handleNotification, didChangeWorkspaceFolders]
    | didChangeConfiguration => simp [handleNotification]
    | didChangeWatchedFiles uris => simp [handleNotification, didChangeWatchedFiles]
    | didSave v => simp [handleNotification]
    | didOpen v version text =>
      simp only [handleNotification, didOpen, Option.map_eq_none_iff, Document.new]
      split <;> simp [normalize_eq']
    | didChange u version changes =>
      obtain ⟨enc, o, hb, ho⟩ := hp
      have h1 := (C24_store h hb).2
      simp only [handleNotification, didChange]
      cases hd : s.doc u with
      | none => simp
      | some d =>
        rw [hd] at h1
        cases o with
        | none => cases h1
        | some x =>
          obtain ⟨enc', t, v⟩ := x
          simp only [Option.map_some, Option.some.injEq, Prod.mk.injEq] at h1
          obtain ⟨rfl, rfl, h2⟩ := h1
          obtain ⟨h3, t', h4⟩ := ho _ _ _ rfl
          obtain ⟨idx, h5⟩ := C09_sequential _ _ _ _ h4
          have h6 := (C50_coherent h u d hd).1
          have h7 : ¬ (version < v) := by omega
          simp [Document.onDidChange, h2, h7, h6, h5]
    | didClose v =>
      simp only [handleNotification, didClose]
      split <;> simp
  | request id r =>
    simp only [handleEvent, ne_eq, Option.map_eq_none_iff]
    cases r with
    | «initialize» folders c =>
      have : s.logging = false := by
        cases hl : s.logging with
        | false => rfl
        | true =>
          obtain ⟨id, f, c, hm⟩ := logging_iff h hl
          exact absurd hm (hp id f c)
      simp [handleRequest, handleInitialize, this]
    | shutdown => simp [handleRequest]
    | formatting u o =>
      have h1 : formattable u (didChangeFormattingOptions u o s) ≠ none := by
        rw [ne_eq, formattable_options]; exact formattable_no_panic hc h hp
      simp only [handleRequest, Option.map_eq_none_iff, documentFormatting]
      split
      · contradiction
      · simp
      · simp
      · split
        · simp
        · split
          · simp
          · split <;> simp
    | rangeFormatting u range o =>
      obtain ⟨hu, enc, b, hb, hr⟩ := hp
      have h1 : formattable u (didChangeFormattingOptions u o s) ≠ none := by
        rw [ne_eq, formattable_options]; exact formattable_no_panic hc h hu
      simp only [handleRequest, Option.map_eq_none_iff, documentRangeFormatting]
      split
      · contradiction
      · simp
      · simp
      · rename_i d w hf
        have hd' : (didChangeFormattingOptions u o s).doc u = some d := by
          simp only [formattable] at hf
          split at hf
          · cases hf
          · rename_i d' hd'
            rw [hd']
            split at hf
            · cases hf
            · cases hf
            · split at hf
              · cases hf
              · cases hf; rfl
        have hs := sameDoc_formattingOptions u o s u
        unfold SameDoc at hs
        rw [show (didChangeFormattingOptions u o s).docs.lookup u = some d from hd', Option.map_some,
          eq_comm, Option.map_eq_some_iff] at hs
        obtain ⟨d0, hd0, hcore⟩ := hs
        have e1 : d.contents = d0.contents := show d.core.contents = d0.core.contents from congrArg Document.contents hcore.symm
        have e2 : d.encoding = d0.encoding := show d.core.encoding = d0.core.encoding from congrArg Document.encoding hcore.symm
        have e3 : d.index = d0.index := show d.core.index = d0.core.index from congrArg Document.index hcore.symm
        have h2 := (C24_store h hb).2
        rw [show s.doc u = some d0 from hd0] at h2
        cases b with
        | none => cases h2
        | some x =>
          obtain ⟨enc', t, v⟩ := x
          simp only [Option.map_some, Option.some.injEq, Prod.mk.injEq] at h2
          obtain ⟨rfl, rfl, h2⟩ := h2
          obtain ⟨a, m, c, h3, rfl⟩ := hr _ _ _ rfl
          have h4 := textRange_posOf d0.encoding a m c
          rw [← h3, ← (C50_coherent h u d0 hd0).1, ← e3, ← e2] at h4
          unfold textRange at h4
          rw [← e2]
          simp only at h4 ⊢
          split
          · rename_i st sp hst hsp
            rw [hst, hsp] at h4
            simp only at h4
            split at h4
            · rename_i hle
              rw [if_neg (by omega)]
              split
              · simp
              · simp
              · split <;> simp
            · cases h4
          · simp
    | viewFile u k => simp [handleRequest]

/-- C23: for a proper client every request up to (and including) the first shutdown request is answered,
exactly once and in order, and nothing after it. -/
theorem C23_all_answered (hc : KeepsRoot T.compile) (events : List (Env × Event))
    (hp : ∀ before env e after, events = before ++ (env, e) :: after →
      Proper (before.map Prod.snd) e) :
    (¬ HasShutdown events →
      (mainLoop events (start (T := T))).ending = .waiting ∧
      (mainLoop events (start (T := T))).responses.map Prod.fst = requestIds events) ∧
    (∀ before env id after, events = before ++ (env, .request id .shutdown) :: after →
      ¬ HasShutdown before → (mainLoop events (start (T := T))).ending = .shutdown ∧
      (mainLoop events (start (T := T))).responses.map Prod.fst = requestIds before ++ [id]) := by
  obtain ⟨done, rest, he, hr, hids, hstop⟩ := C23_loop events (start (T := T))
  have nocrash : ∀ {env e rest'}, rest = (env, e) :: rest' →
      handleEvent env e (mainLoop events (start (T := T))).state ≠ none := by
    rintro env e rest' rfl
    exact C51_survives hc hr env e (hp _ _ _ _ he)
  generalize hl : mainLoop events (start (T := T)) = l at hr hids hstop nocrash
  cases hstop with
  | waiting h hn =>
    simp only [List.append_nil] at he
    subst he
    refine ⟨fun _ => ⟨h, hids⟩, ?_⟩
    rintro before env id after rfl _
    exact absurd ⟨(env, .request id .shutdown), by simp, id, rfl⟩ hn
  | @shutdown done _ env id h hn =>
    constructor
    · intro hno
      exact absurd ⟨(env, .request id .shutdown), by simp [he], id, rfl⟩ hno
    · intro before env' id' after he' hb
      rw [he', List.append_assoc, List.singleton_append] at he
      have key : ∀ (a b c d : List (Env × Event)) (x y : Env × Event),
          a ++ x :: b = c ++ y :: d → (∀ z ∈ a, ¬ ∃ id, z.2 = .request id .shutdown) →
          (∀ z ∈ c, ¬ ∃ id, z.2 = .request id .shutdown) → (∃ id, x.2 = .request id .shutdown) →
          (∃ id, y.2 = .request id .shutdown) → a = c ∧ x = y := by
        intro a
        induction a with
        | nil =>
          intro b c d x y h1 h2 h3 h4 h5
          cases c with
          | nil => simp only [List.nil_append, List.cons.injEq] at h1; exact ⟨rfl, h1.1⟩
          | cons z c =>
            simp only [List.nil_append, List.cons_append, List.cons.injEq] at h1
            rw [h1.1] at h4
            exact absurd h4 (h3 z (by simp))
        | cons w a ih =>
          intro b c d x y h1 h2 h3 h4 h5
          cases c with
          | nil =>
            simp only [List.nil_append, List.cons_append, List.cons.injEq] at h1
            rw [← h1.1] at h5
            exact absurd h5 (h2 w (by simp))
          | cons z c =>
            simp only [List.cons_append, List.cons.injEq] at h1
            obtain ⟨h6, h7⟩ := ih b c d x y h1.2 (fun z hz => h2 z (by simp [hz]))
              (fun z hz => h3 z (by simp [hz])) h4 h5
            exact ⟨by rw [h1.1, h6], h7⟩
      obtain ⟨h1, h2⟩ := key _ _ _ _ _ _ he (fun z hz hi => hb ⟨z, hz, hi⟩)
        (fun z hz hi => hn ⟨z, hz, hi⟩) ⟨id', rfl⟩ ⟨id, rfl⟩
      subst h1
      cases h2
      refine ⟨h, ?_⟩
      rw [hids]
      simp [requestIds]
  | crashed h hn hcr => exact absurd hcr (nocrash rfl)

/-- A proper history with a shutdown before its end. -/
def exLoop : List (Env × Event) :=
  (exHistory ++ ([.request 7 (.formatting (exUrl "a.R") ⟨true, 4⟩), .request 8 .shutdown,
    .request 9 (.viewFile (exUrl "b.R") 0)] : List Event)).map fun e => (plainEnv, e)

/-- Only requests and openings after `initialize`: the hypothesis of `C23_all_answered` holds. -/
example : ∀ before env e after,
    ([.request 0 (.initialize [] ⟨true, false, false, false⟩),
      .notification (.didOpen (exUrl "a.R") 1 "x".toList),
      .request 1 (.formatting (exUrl "a.R") ⟨true, 4⟩), .request 2 .shutdown,
      .notification (.didClose (exUrl "a.R"))].map fun e : Event => (plainEnv, e)) =
        before ++ (env, e) :: after → Proper (before.map Prod.snd) e := by
  have habs : PlainUrl (exUrl "a.R") := by
    constructor
    · rintro _ p ⟨⟩
      exact ⟨["w", "a.R"], rfl, by decide⟩
    · intro h; exact absurd h (by decide)
  intro before env e after h
  simp only [List.map_cons, List.map_nil] at h
  rcases before with _ | ⟨b0, _ | ⟨b1, _ | ⟨b2, _ | ⟨b3, _ | ⟨b4, b⟩⟩⟩⟩⟩ <;>
    simp at h
  · obtain ⟨⟨rfl, rfl⟩, rfl⟩ := h; simp [Proper]
  · obtain ⟨rfl, ⟨rfl, rfl⟩, rfl⟩ := h; simp [Proper]
  · obtain ⟨rfl, rfl, ⟨rfl, rfl⟩, rfl⟩ := h; exact habs
  · obtain ⟨rfl, rfl, rfl, ⟨rfl, rfl⟩, rfl⟩ := h; simp [Proper]
  · obtain ⟨rfl, rfl, rfl, rfl, ⟨rfl, rfl⟩, rfl⟩ := h; simp [Proper]

example : (mainLoop exLoop (start (T := plainTools))).responses =
      [(0, some (.initialize .utf8)), (1, some (.edits none)), (7, none), (8, some .shutdown)] ∧
    (mainLoop exLoop (start (T := plainTools))).ending = .shutdown := by
  decide

/-- A pattern compiler whose patterns match nothing. -/
def noMatch (root : Path) (patterns : List String) : Option FilePatterns :=
  some ⟨root, patterns.isEmpty, fun _ _ => .none⟩

def matchTools : Tools := { plainTools with compile := noMatch }

example : KeepsRoot matchTools.compile := by
  intro root patterns fp h
  cases h; rfl

/-- The folder `/p` has a configuration with an exclusion. -/
def excludeEnv : Env :=
  { plainEnv with
    disk := {
      isFile := fun p => p == ["/", "p", "air.toml"]
      readToml := fun _ => some [("format", .table [("exclude", .arr [.str "x"])])] } }

/-- A new file that is not saved yet, as an editor names it (`untitled:/outside/a.R`). -/
def untitledUrl : Url :=
  { text := "untitled:/outside/a.R", scheme := "untitled", filePath := some ["/", "outside", "a.R"] }

/-- C51 is false without the restriction on URLs: with one open folder whose configuration excludes
something, formatting an untitled document with a path outside of the folder ends the server, and the
remaining requests are not answered. -/
theorem C51_untitled_crash :
    (mainLoop [(excludeEnv, .request 0 (.initialize [fileUrl ["/", "p"]] ⟨true, false, false, false⟩)),
      (excludeEnv, .notification (.didOpen untitledUrl 1 "x".toList)),
      (excludeEnv, .request 1 (.formatting untitledUrl ⟨true, 2⟩)),
      (excludeEnv, .request 2 .shutdown)] (start (T := matchTools))).ending = .crashed := by
  decide +kernel

/-- Other events that end the server: a second `initialize`, a change with an invalid position, a
change with an older version, a selection that ends before it starts. -/
theorem C51_crashes :
    let opened : List Event := [.request 0 (.initialize [] ⟨true, false, false, false⟩),
      .notification (.didOpen (exUrl "a.R") 3 "xyz".toList)]
    let ending := fun e : Event =>
      (mainLoop ((opened ++ [e]).map fun e => (plainEnv, e)) (start (T := plainTools))).ending
    ending (.request 1 (.initialize [] ⟨true, false, false, false⟩)) = .crashed ∧
    ending (.notification (.didChange (exUrl "a.R") 4 [insertAt 1 0 "a"])) = .crashed ∧
    ending (.notification (.didChange (exUrl "a.R") 2 [insertAt 0 0 "a"])) = .crashed ∧
    ending (.request 1 (.rangeFormatting (exUrl "a.R") ⟨⟨0, 2⟩, ⟨0, 1⟩⟩ ⟨true, 2⟩)) = .crashed ∧
    ending (.request 1 (.rangeFormatting (exUrl "a.R") ⟨⟨0, 1⟩, ⟨0, 2⟩⟩ ⟨true, 2⟩)) = .waiting := by
  decide

end Verif.Lsp
