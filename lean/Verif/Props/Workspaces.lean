import Verif.Model.Lsp
import Verif.Props.DiscoverFiles

/-!
# C26: workspace settings; C27: formatting options; C43: pushing settings to the client; C22: excluded
documents
-/

namespace Verif.Lsp

open Verif.Resolver (Path Resolver Item)
open Verif.FilePatterns (FilePatterns)
open Verif.Settings (Settings Toml)
open Verif.Discovery

/-! ## Specification -/

/-- Looking for the configuration of a directory: the nearest one at or above it (directory and
contents), or nothing, or it is invalid (outer `none`). -/
inductive Lookup (compile : Path → List String → Option FilePatterns) (disk : Disk) (p : Path) :
    Option (Option (Path × Settings)) → Prop
  | found {d s} (h : Nearest disk p d) (hs : SettingsIn compile disk d = some s) :
      Lookup compile disk p (some (some (d, s)))
  | nothing (h : ∀ d, ¬ Nearest disk p d) : Lookup compile disk p (some none)
  | invalid {d} (h : Nearest disk p d) (hs : SettingsIn compile disk d = none) :
      Lookup compile disk p none

/-- What the server knows about a directory: `none` if it is not an open workspace folder, otherwise
the configuration found for it. -/
abbrev Known := Path → Option (Option (Path × Settings))

/-- What happens to the workspaces. The file system is the one at the time of the event. -/
inductive WsEvent
  | opened (disk : Disk) (u : Url)
  | closed (u : Url)
  | fileChanged (disk : Disk) (u : Url)

/-- A `file:` URL and its path. -/
def FileUrl (u : Url) (p : Path) : Prop := u.scheme = "file" ∧ u.filePath = some p

def IsToml (p : Path) : Prop := ∃ d, p = d ++ ["air.toml"] ∨ p = d ++ [".air.toml"]

/-- Opening a folder looks for its configuration, an invalid one leaves everything as it was. Closing
forgets it. A changed configuration file makes the folders containing it look again, and an invalid one
counts as nothing found. -/
inductive SpecStep (compile : Path → List String → Option FilePatterns) :
    Known → WsEvent → Known → Prop
  | openedOk {m disk u p r} (hu : FileUrl u p) (h : Lookup compile disk p (some r)) :
      SpecStep compile m (.opened disk u) (fun d => if d = p then some r else m d)
  | openedInvalid {m disk u p} (hu : FileUrl u p) (h : Lookup compile disk p none) :
      SpecStep compile m (.opened disk u) m
  | openedOther {m disk u} (hu : ∀ p, ¬ FileUrl u p) : SpecStep compile m (.opened disk u) m
  | closed {m u p} (hu : FileUrl u p) :
      SpecStep compile m (.closed u) (fun d => if d = p then none else m d)
  | closedOther {m u} (hu : ∀ p, ¬ FileUrl u p) : SpecStep compile m (.closed u) m
  | changed {m m' disk u p} (hu : FileUrl u p) (ht : IsToml p)
      (hin : ∀ d, d <+: p → m d ≠ none → ∃ r, Lookup compile disk d r ∧ m' d = some (r.getD none))
      (hout : ∀ d, ¬ (d <+: p ∧ m d ≠ none) → m' d = m d) :
      SpecStep compile m (.fileChanged disk u) m'
  | changedOther {m disk u} (hu : ∀ p, FileUrl u p → ¬ IsToml p) :
      SpecStep compile m (.fileChanged disk u) m

inductive SpecRun (compile : Path → List String → Option FilePatterns) :
    Known → List WsEvent → Known → Prop
  | nil (m) : SpecRun compile m [] m
  | cons {m m' m'' e es} (h : SpecStep compile m e m') (hs : SpecRun compile m' es m'') :
      SpecRun compile m (e :: es) m''

/-- The implementation. -/
def wsStep (compile : Path → List String → Option FilePatterns) (w : Workspaces) : WsEvent → Workspaces
  | .opened disk u => openWorkspaceFolder compile disk w u
  | .closed u => closeWorkspaceFolder w u
  | .fileChanged disk u => (reloadWorkspaces compile disk w u).1

def wsRun (compile : Path → List String → Option FilePatterns) (w : Workspaces) (es : List WsEvent) :
    Workspaces := es.foldl (wsStep compile) w

/-- No workspace open (`Default`). -/
def noWorkspaces : Workspaces := Resolver.new (Resolver.new Settings.default)

/-- `p` is the innermost open workspace folder containing `path`. -/
def Innermost (m : Known) (path p : Path) : Prop :=
  p <+: path ∧ m p ≠ none ∧ ∀ q, q <+: path → m q ≠ none → q.length ≤ p.length

/-! ## Lemmas -/

theorem lookup_exists (compile : Path → List String → Option FilePatterns) (disk : Disk) (p : Path) :
    ∃ r, Lookup compile disk p r := by
  by_cases h : ∃ d, Nearest disk p d
  · obtain ⟨d, hd⟩ := h
    cases hs : SettingsIn compile disk d with
    | none => exact ⟨_, .invalid hd hs⟩
    | some s => exact ⟨_, .found hd hs⟩
  · exact ⟨_, .nothing fun d hd => h ⟨d, hd⟩⟩

theorem lookup_unique {compile : Path → List String → Option FilePatterns} {disk : Disk} {p : Path}
    {r r' : Option (Option (Path × Settings))} (h : Lookup compile disk p r)
    (h' : Lookup compile disk p r') : r = r' := by
  cases h with
  | found hd hs =>
    cases h' with
    | found hd' hs' => obtain rfl := nearest_unique hd hd'; rw [hs] at hs'; cases hs'; rfl
    | nothing h => exact absurd hd (h _)
    | invalid hd' hs' => obtain rfl := nearest_unique hd hd'; rw [hs] at hs'; cases hs'
  | nothing h =>
    cases h' with
    | found hd' hs' => exact absurd hd' (h _)
    | nothing _ => rfl
    | invalid hd' _ => exact absurd hd' (h _)
  | invalid hd hs =>
    cases h' with
    | found hd' hs' => obtain rfl := nearest_unique hd hd'; rw [hs] at hs'; cases hs'
    | nothing h => exact absurd hd (h _)
    | invalid _ _ => rfl

theorem lookup_prefix {compile : Path → List String → Option FilePatterns} {disk : Disk} {p d : Path}
    {s : Settings} (h : Lookup compile disk p (some (some (d, s)))) : d <+: p := by
  cases h with | found hd _ => exact hd.2.1

theorem nodup_single {l : List (Path × Settings)} {x : Path × Settings}
    (h : (l.map Prod.fst).Nodup) (hx : ∀ y, y ∈ l ↔ y = x) : l = [x] := by
  match l with
  | [] => have := (hx x).mpr rfl; cases this
  | [a] => rw [(hx a).mp (by simp)]
  | a :: b :: l =>
    have h1 := (hx a).mp (by simp)
    have h2 := (hx b).mp (by simp)
    rw [h1, h2] at h
    simp at h

/-- Discovery for a single folder is the lookup. -/
theorem discover_single {compile : Path → List String → Option FilePatterns} {disk : Disk} {p : Path}
    {r : Option (Option (Path × Settings))} (h : Lookup compile disk p r) :
    discoverSettings compile disk [p] = r.map Option.toList := by
  obtain ⟨h1, h2⟩ := C16_discovered compile disk [p]
  cases h with
  | invalid hd hs => rw [h1.mpr ⟨p, by simp, _, hd, hs⟩]; rfl
  | nothing hno =>
    cases hd : discoverSettings compile disk [p] with
    | none =>
      obtain ⟨q, hq, d, hd', _⟩ := h1.mp hd
      simp only [List.mem_singleton] at hq
      subst hq
      exact absurd hd' (hno d)
    | some found =>
      obtain ⟨_, h3⟩ := h2 found hd
      cases found with
      | nil => rfl
      | cons e l =>
        obtain ⟨⟨q, hq, hn⟩, _⟩ := (h3 e.1 e.2).mp (by simp)
        simp only [List.mem_singleton] at hq
        subst hq
        exact absurd hn (hno _)
  | @found d s hn hs =>
    cases hd : discoverSettings compile disk [p] with
    | none =>
      obtain ⟨q, hq, d', hd', hs'⟩ := h1.mp hd
      simp only [List.mem_singleton] at hq
      subst hq
      obtain rfl := nearest_unique hn hd'
      rw [hs] at hs'; cases hs'
    | some found =>
      obtain ⟨h4, h3⟩ := h2 found hd
      have := nodup_single (x := (d, s)) h4 (by
        rintro ⟨e, t⟩
        rw [h3]
        simp only [List.mem_singleton, exists_eq_left, Prod.mk.injEq]
        constructor
        · rintro ⟨hn', hs'⟩
          obtain rfl := nearest_unique hn hn'
          rw [hs] at hs'; cases hs'
          exact ⟨rfl, rfl⟩
        · rintro ⟨rfl, rfl⟩; exact ⟨hn, hs⟩)
      rw [this]; rfl

theorem urlToPath_eq {u : Url} {p : Path} : urlToPath u = some p ↔ FileUrl u p := by
  unfold urlToPath FileUrl
  by_cases h : u.scheme = "file" <;> simp [h]

theorem urlToPath_none {u : Url} : urlToPath u = none ↔ ∀ p, ¬ FileUrl u p := by
  rw [Option.eq_none_iff_forall_ne_some]
  simp only [ne_eq, urlToPath_eq]

theorem isAirToml_iff {p : Path} : isAirToml p = true ↔ IsToml p := by
  rcases path_cases p with rfl | ⟨q, c, rfl⟩
  · simp [isAirToml, IsToml]
  · simp only [isAirToml, IsToml, List.getLast?_concat, Bool.or_eq_true, beq_iff_eq,
      Option.some.injEq]
    constructor
    · rintro (rfl | rfl)
      · exact ⟨q, .inl rfl⟩
      · exact ⟨q, .inr rfl⟩
    · rintro ⟨d, h | h⟩
      · exact .inl (by have := congrArg List.getLast? h; simpa using this)
      · exact .inr (by have := congrArg List.getLast? h; simpa using this)

/-- The inner resolver of a workspace holds the configuration found. -/
def Holds (r : Resolver Settings) (o : Option (Path × Settings)) : Prop :=
  r = o.toList.foldl (fun r d => (Resolver.add r d.1 d.2).1) (Resolver.new Settings.default)

theorem holds_build (o : Option (Path × Settings)) : Holds (buildResolver o.toList) o := rfl

theorem add_empty (d : Path) (s : Settings) :
    Resolver.add (Resolver.new Settings.default) d s =
      ({ fallback := Settings.default, items := [⟨d, s⟩] }, none) := by
  simp [Resolver.add, Resolver.new, Resolver.search, BinarySearch.binarySearchBy]

theorem Holds.eq {r : Resolver Settings} {o : Option (Path × Settings)} (h : Holds r o) :
    r.fallback = Settings.default ∧ r.items = o.toList.map fun d => ⟨d.1, d.2⟩ := by
  cases o with
  | none => rw [h]; exact ⟨rfl, rfl⟩
  | some x =>
    have : r = (Resolver.add (Resolver.new Settings.default) x.1 x.2).1 := h
    rw [this, add_empty]; exact ⟨rfl, rfl⟩

theorem Holds.clear {r : Resolver Settings} {o : Option (Path × Settings)} (h : Holds r o) :
    Resolver.clear r = Resolver.new Settings.default := by
  unfold Resolver.clear Resolver.new
  rw [h.eq.1]

/-- The workspaces represent what is known. -/
structure RepW (w : Workspaces) (m : Known) : Prop where
  fallback : w.fallback = Resolver.new Settings.default
  rep : ∃ mm : Path → Option (Resolver Settings), Resolver.Rep w mm ∧
    ∀ p, (m p = none ∧ mm p = none) ∨ ∃ o r, m p = some o ∧ mm p = some r ∧ Holds r o
  inside : ∀ p d s, m p = some (some (d, s)) → d <+: p

theorem reload_holds {compile : Path → List String → Option FilePatterns} {disk : Disk}
    {item : Item (Resolver Settings)} {o : Option (Path × Settings)} (h : Holds item.value o)
    {r : Option (Option (Path × Settings))} (hl : Lookup compile disk item.path r) :
    Holds (reloadWorkspace compile disk item).1 (r.getD none) := by
  unfold reloadWorkspace
  rw [discover_single hl, h.clear]
  cases r with
  | none => rfl
  | some o' => rfl

theorem wsStep_rep {compile : Path → List String → Option FilePatterns} {w : Workspaces} {m : Known}
    (h : RepW w m) (e : WsEvent) : ∃ m', SpecStep compile m e m' ∧ RepW (wsStep compile w e) m' := by
  obtain ⟨hf, ⟨mm, hr, hmm⟩, hin⟩ := h
  cases e with
  | opened disk u =>
    cases hu : urlToPath u with
    | none =>
      refine ⟨m, .openedOther (urlToPath_none.mp hu), ?_⟩
      simp only [wsStep, openWorkspaceFolder, hu]
      exact ⟨hf, ⟨mm, hr, hmm⟩, hin⟩
    | some p =>
      obtain ⟨r, hl⟩ := lookup_exists compile disk p
      simp only [wsStep, openWorkspaceFolder, hu, discover_single hl]
      cases r with
      | none => exact ⟨m, .openedInvalid (urlToPath_eq.mp hu) hl, hf, ⟨mm, hr, hmm⟩, hin⟩
      | some o =>
        refine ⟨_, .openedOk (urlToPath_eq.mp hu) hl, ?_⟩
        obtain ⟨h1, _, h2⟩ := Resolver.step_rep w mm hr (.add p (buildResolver o.toList))
        refine ⟨h2.trans hf, ⟨_, h1, ?_⟩, ?_⟩
        · intro q
          by_cases hq : q = p
          · subst hq
            exact .inr ⟨o, buildResolver o.toList, by simp, by simp [Resolver.specStep],
              holds_build o⟩
          · simpa [Resolver.specStep, hq] using hmm q
        · intro q d s hq
          by_cases hqp : q = p
          · subst hqp
            simp only [if_true, Option.some.injEq] at hq
            subst hq
            exact lookup_prefix hl
          · exact hin q d s (by simpa [hqp] using hq)
  | closed u =>
    cases hu : urlToPath u with
    | none =>
      refine ⟨m, .closedOther (urlToPath_none.mp hu), ?_⟩
      simp only [wsStep, closeWorkspaceFolder, hu]
      exact ⟨hf, ⟨mm, hr, hmm⟩, hin⟩
    | some p =>
      refine ⟨_, .closed (urlToPath_eq.mp hu), ?_⟩
      simp only [wsStep, closeWorkspaceFolder, hu]
      obtain ⟨h1, _, h2⟩ := Resolver.step_rep w mm hr (.remove p)
      refine ⟨h2.trans hf, ⟨_, h1, ?_⟩, ?_⟩
      · intro q
        by_cases hq : q = p
        · subst hq; exact .inl ⟨by simp, by simp [Resolver.specStep]⟩
        · simpa [Resolver.specStep, hq] using hmm q
      · intro q d s hq
        by_cases hqp : q = p
        · simp [hqp] at hq
        · exact hin q d s (by simpa [hqp] using hq)
  | fileChanged disk u =>
    cases hu : urlToPath u with
    | none =>
      refine ⟨m, .changedOther fun p hp => absurd hp (urlToPath_none.mp hu p), ?_⟩
      simp only [wsStep, reloadWorkspaces, hu]
      exact ⟨hf, ⟨mm, hr, hmm⟩, hin⟩
    | some p =>
      by_cases ht : isAirToml p = true
      · simp only [wsStep, reloadWorkspaces, hu, ht, if_true]
        let m' : Known := fun d => if d <+: p ∧ m d ≠ none
          then some ((Classical.choose (lookup_exists compile disk d)).getD none) else m d
        have hm' : ∀ d, d <+: p → m d ≠ none →
            ∃ r, Lookup compile disk d r ∧ m' d = some (r.getD none) := fun d hd hne =>
          ⟨_, Classical.choose_spec (lookup_exists compile disk d), if_pos ⟨hd, hne⟩⟩
        have hm'' : ∀ d, ¬ (d <+: p ∧ m d ≠ none) → m' d = m d := fun d hd => if_neg hd
        refine ⟨m', .changed (urlToPath_eq.mp hu) (isAirToml_iff.mp ht) hm' hm'', ?_⟩
        obtain ⟨h1, _, h2⟩ := Resolver.step_rep w mm hr
          (.update p fun path value => (reloadWorkspace compile disk ⟨path, value⟩).1)
        refine ⟨h2.trans hf, ⟨_, h1, ?_⟩, ?_⟩
        · intro q
          simp only [Resolver.specStep]
          rcases hmm q with ⟨g1, g2⟩ | ⟨o, r, g1, g2, g3⟩
          · refine .inl ⟨by rw [hm'' q (by simp [g1])]; exact g1, by simp [g2]⟩
          · by_cases hq : q <+: p
            · obtain ⟨r', l1, l2⟩ := hm' q hq (by simp [g1])
              exact .inr ⟨_, _, l2, by simp [hq, g2], reload_holds (item := ⟨q, r⟩) g3 l1⟩
            · refine .inr ⟨o, r, by rw [hm'' q (by simp [hq])]; exact g1, by simp [hq, g2], g3⟩
        · intro q d s hq
          by_cases hqp : q <+: p ∧ m q ≠ none
          · obtain ⟨r', l1, l2⟩ := hm' q hqp.1 hqp.2
            rw [hq] at l2
            cases r' with
            | none => cases l2
            | some x =>
              simp only [Option.getD_some, Option.some.injEq] at l2
              subst l2
              exact lookup_prefix l1
          · exact hin q d s (by rw [← hm'' q hqp]; exact hq)
      · refine ⟨m, .changedOther fun q hq => ?_, ?_⟩
        · have := urlToPath_eq.mpr hq
          rw [hu] at this; cases this
          rw [← isAirToml_iff]; exact ht
        · simp only [wsStep, reloadWorkspaces, hu, if_neg ht]
          exact ⟨hf, ⟨mm, hr, hmm⟩, hin⟩

theorem specStep_unique {compile : Path → List String → Option FilePatterns} {m m1 m2 : Known}
    {e : WsEvent} (h1 : SpecStep compile m e m1) (h2 : SpecStep compile m e m2) : m1 = m2 := by
  have hurl : ∀ {u : Url} {p q : Path}, FileUrl u p → FileUrl u q → p = q := by
    intro u p q h h'
    have := h.2.symm.trans h'.2
    cases this; rfl
  cases h1 with
  | openedOk hu h =>
    cases h2 with
    | openedOk hu' h' =>
      obtain rfl := hurl hu hu'
      cases lookup_unique h h'; rfl
    | openedInvalid hu' h' =>
      obtain rfl := hurl hu hu'
      cases lookup_unique h h'
    | openedOther hu' => exact absurd hu (hu' _)
  | openedInvalid hu h =>
    cases h2 with
    | openedOk hu' h' =>
      obtain rfl := hurl hu hu'
      cases lookup_unique h h'
    | openedInvalid hu' h' => rfl
    | openedOther hu' => rfl
  | openedOther hu =>
    cases h2 with
    | openedOk hu' h' => exact absurd hu' (hu _)
    | openedInvalid hu' h' => rfl
    | openedOther hu' => rfl
  | closed hu =>
    cases h2 with
    | closed hu' => obtain rfl := hurl hu hu'; rfl
    | closedOther hu' => exact absurd hu (hu' _)
  | closedOther hu =>
    cases h2 with
    | closed hu' => exact absurd hu' (hu _)
    | closedOther hu' => rfl
  | changed hu ht hin hout =>
    cases h2 with
    | changed hu' ht' hin' hout' =>
      obtain rfl := hurl hu hu'
      rename_i p
      funext d
      by_cases hd : d <+: p ∧ m d ≠ none
      · obtain ⟨r, a1, a2⟩ := hin d hd.1 hd.2
        obtain ⟨r', b1, b2⟩ := hin' d hd.1 hd.2
        rw [a2, b2, lookup_unique a1 b1]
      · rw [hout d hd, hout' d hd]
    | changedOther hu' => exact absurd ht (hu' _ hu)
  | changedOther hu =>
    cases h2 with
    | changed hu' ht' _ _ => exact absurd ht' (hu _ hu')
    | changedOther _ => rfl

theorem wsRun_rep {compile : Path → List String → Option FilePatterns} (es : List WsEvent)
    {w : Workspaces} {m : Known} (h : RepW w m) :
    ∃ m', SpecRun compile m es m' ∧ RepW (wsRun compile w es) m' := by
  induction es generalizing w m with
  | nil => exact ⟨m, .nil m, h⟩
  | cons e es ih =>
    obtain ⟨m', h1, h2⟩ := wsStep_rep (compile := compile) h e
    obtain ⟨m'', h3, h4⟩ := ih h2
    exact ⟨m'', .cons h1 h3, h4⟩

theorem specRun_unique {compile : Path → List String → Option FilePatterns} {m m1 m2 : Known}
    {es : List WsEvent} (h1 : SpecRun compile m es m1) (h2 : SpecRun compile m es m2) : m1 = m2 := by
  induction h1 with
  | nil => cases h2; rfl
  | cons h hs ih =>
    cases h2 with
    | cons h' hs' =>
      obtain rfl := specStep_unique h h'
      exact ih hs'

theorem noWorkspaces_rep : RepW noWorkspaces fun _ => none :=
  ⟨rfl, ⟨fun _ => none, Resolver.new_rep _, fun _ => .inl ⟨rfl, rfl⟩⟩, fun _ _ _ h => by cases h⟩

theorem RepW.item {w : Workspaces} {m : Known} (h : RepW w m) (p : Path) :
    (∃ r, (⟨p, r⟩ : Item (Resolver Settings)) ∈ w.items) ↔ m p ≠ none := by
  obtain ⟨_, ⟨mm, hr, hmm⟩, _⟩ := h
  simp only [hr.2]
  rcases hmm p with ⟨g1, g2⟩ | ⟨o, r, g1, g2, _⟩
  · simp [g1, g2]
  · simp [g1, g2]

theorem RepW.value {w : Workspaces} {m : Known} (h : RepW w m) {p : Path} {r : Resolver Settings}
    (hi : (⟨p, r⟩ : Item (Resolver Settings)) ∈ w.items) : ∃ o, m p = some o ∧ Holds r o := by
  obtain ⟨_, ⟨mm, hr, hmm⟩, _⟩ := h
  rw [hr.2] at hi
  rcases hmm p with ⟨g1, g2⟩ | ⟨o, r', g1, g2, g3⟩
  · rw [hi] at g2; cases g2
  · rw [hi] at g2; cases g2; exact ⟨o, g1, g3⟩

theorem settingsForPath_spec {w : Workspaces} {m : Known} (h : RepW w m) (path : Path) :
    (∀ p d s, Innermost m path p → m p = some (some (d, s)) → settingsForPath w path = .toml s) ∧
    (∀ p, Innermost m path p → m p = some none →
      settingsForPath w path = .fallback Settings.default) ∧
    ((∀ p, p <+: path → m p = none) → settingsForPath w path = .fallback Settings.default) := by
  have hsorted : Resolver.Sorted w.items := by obtain ⟨_, ⟨mm, hr, _⟩, _⟩ := h; exact hr.1
  have hfb : w.fallback.fallback = Settings.default := by rw [h.fallback]; rfl
  have hres : ∀ p, Innermost m path p → ∃ r o, m p = some o ∧ Holds r o ∧
      Resolver.resolve w path = some ⟨p, r⟩ := by
    rintro p ⟨h1, h2, h3⟩
    obtain ⟨r, hi⟩ := (h.item p).mpr h2
    obtain ⟨o, ho, hh⟩ := h.value hi
    refine ⟨r, o, ho, hh, ?_⟩
    rw [Resolver.resolve_eq_some_iff _ hsorted]
    exact ⟨hi, h1, fun d' v' hm hp => h3 d' hp ((h.item d').mp ⟨v', hm⟩)⟩
  refine ⟨?_, ?_, ?_⟩
  · intro p d s hp hm
    obtain ⟨r, o, ho, hh, hr⟩ := hres p hp
    rw [hm] at ho; cases ho
    have hd : d <+: path := (h.inside p d s hm).trans hp.1
    have : Resolver.resolve r path = some ⟨d, s⟩ := by
      simp only [Resolver.resolve, hh.eq.2]
      simp [Resolver.startsWith, List.isPrefixOf_iff_prefix, hd]
    simp [settingsForPath, hr, this]
  · intro p hp hm
    obtain ⟨r, o, ho, hh, hr⟩ := hres p hp
    rw [hm] at ho; cases ho
    have : Resolver.resolve r path = none := by
      simp [Resolver.resolve, hh.eq.2]
    simp [settingsForPath, hr, this, hfb]
  · intro hno
    have : Resolver.resolve w path = none := by
      rw [Resolver.resolve_eq_none_iff]
      intro d v hm hd
      exact (h.item d).mp ⟨v, hm⟩ (hno d hd)
    simp [settingsForPath, this, hfb]

/-! ## C26 -/

/-- C26: after any history of folders being opened and closed and of changed files, the settings of a
`file:` document are those known for the innermost open folder that contains it (what is known is
determined by the history, see `SpecStep`); if nothing is known for it, or no open folder contains the
document, they are the defaults. -/
theorem C26_settings (compile : Path → List String → Option FilePatterns) (es : List WsEvent)
    (u : Url) (path : Path) (hu : FileUrl u path) :
    ∃ m, (∀ m', SpecRun compile (fun _ => none) es m' ↔ m' = m) ∧
      (∀ p d s, Innermost m path p → m p = some (some (d, s)) →
        settingsForUrl (wsRun compile noWorkspaces es) u = .toml s) ∧
      (∀ p, Innermost m path p → m p = some none →
        settingsForUrl (wsRun compile noWorkspaces es) u = .fallback Settings.default) ∧
      ((∀ p, p <+: path → m p = none) →
        settingsForUrl (wsRun compile noWorkspaces es) u = .fallback Settings.default) := by
  obtain ⟨m, h1, h2⟩ := wsRun_rep (compile := compile) es noWorkspaces_rep
  refine ⟨m, fun m' => ⟨fun h => specRun_unique h h1, fun h => h ▸ h1⟩, ?_⟩
  have := settingsForPath_spec h2 path
  simpa only [settingsForUrl, urlToPath_eq.mpr hu] using this

/-- C26: documents that are not files have the default settings, except for untitled ones when exactly
one folder is open: these have the settings of a file in that folder. -/
theorem C26_other_urls (compile : Path → List String → Option FilePatterns) (es : List WsEvent)
    (u : Url) (hu : ∀ p, ¬ FileUrl u p) (m : Known) (hm : SpecRun compile (fun _ => none) es m) :
    (∀ p d s, u.scheme = "untitled" → m p = some (some (d, s)) → (∀ q, q ≠ p → m q = none) →
      settingsForUrl (wsRun compile noWorkspaces es) u = .toml s) ∧
    ((u.scheme ≠ "untitled" ∨ (∃ p q, p ≠ q ∧ m p ≠ none ∧ m q ≠ none) ∨
      ∀ p d s, m p ≠ some (some (d, s))) →
      settingsForUrl (wsRun compile noWorkspaces es) u = .fallback Settings.default) := by
  obtain ⟨m', h1, h2⟩ := wsRun_rep (compile := compile) es noWorkspaces_rep
  obtain rfl := specRun_unique h1 hm
  have hfb : (wsRun compile noWorkspaces es).fallback.fallback = Settings.default := by
    rw [h2.fallback]; rfl
  constructor
  · intro p d s hs hp hq
    obtain ⟨r, hr⟩ := (h2.item p).mpr (by simp [hp])
    have hall : ∀ x ∈ (wsRun compile noWorkspaces es).items, x.path = p := by
      intro x hx
      apply Classical.byContradiction
      intro hne
      exact (h2.item x.path).mp ⟨x.value, hx⟩ (hq _ hne)
    have hsorted : Resolver.Sorted (wsRun compile noWorkspaces es).items := by
      obtain ⟨_, ⟨mm, hr, _⟩, _⟩ := h2; exact hr.1
    have hitems : ∃ item, (wsRun compile noWorkspaces es).items = [item] ∧ item.path = p := by
      cases hi : (wsRun compile noWorkspaces es).items with
      | nil => rw [hi] at hr; cases hr
      | cons a l =>
        cases l with
        | nil => exact ⟨a, rfl, hall a (by simp [hi])⟩
        | cons b l =>
          rw [hi] at hsorted
          have hlt := (List.pairwise_cons.mp hsorted).1 b (by simp)
          rw [hall a (by simp [hi]), hall b (by simp [hi]), Resolver.cmp_self] at hlt
          cases hlt
    obtain ⟨item, hi, hip⟩ := hitems
    simp only [settingsForUrl, urlToPath_none.mpr hu, hi, if_pos hs, hip]
    refine (settingsForPath_spec h2 _).1 p d s ⟨List.prefix_append _ _, by simp [hp], ?_⟩ hp
    intro q _ hq'
    by_cases hqp : q = p
    · rw [hqp]; exact Nat.le_refl _
    · exact absurd (hq q hqp) hq'
  · intro h
    simp only [settingsForUrl, urlToPath_none.mpr hu]
    split
    · rename_i item hi
      split
      · rename_i hs
        obtain ⟨o, ho, _⟩ := h2.value (p := item.path) (r := item.value) (by rw [hi]; simp)
        have hin : Innermost m' (item.path ++ ["untitled"]) item.path := by
          refine ⟨List.prefix_append _ _, by simp [ho], ?_⟩
          intro q _ hq
          obtain ⟨r, hr⟩ := (h2.item q).mpr hq
          rw [hi] at hr
          simp only [List.mem_singleton] at hr
          rw [← hr]; exact Nat.le_refl _
        have hnone : m' item.path = some none := by
          rcases h with h | ⟨p, q, hpq, hp, hq⟩ | h
          · exact absurd hs h
          · obtain ⟨r1, hr1⟩ := (h2.item p).mpr hp
            obtain ⟨r2, hr2⟩ := (h2.item q).mpr hq
            rw [hi] at hr1 hr2
            simp only [List.mem_singleton] at hr1 hr2
            rw [← hr2] at hr1
            cases hr1
            exact absurd rfl hpq
          · rw [ho]
            cases o with
            | none => rfl
            | some x => exact absurd ho (h _ x.1 x.2)
        exact (settingsForPath_spec h2 _).2.1 _ hin hnone
      · rw [hfb]
    · rw [hfb]

theorem specStep_current {compile : Path → List String → Option FilePatterns} {disk : Disk}
    (hvalid : ∀ d, HasToml disk d → SettingsIn compile disk d ≠ none) {m m' : Known} {e : WsEvent}
    (he : ∀ d' u, e = .opened d' u ∨ e = .fileChanged d' u → d' = disk)
    (h : SpecStep compile m e m') (hm : ∀ p r, m p = some r → Lookup compile disk p (some r)) :
    ∀ p r, m' p = some r → Lookup compile disk p (some r) := by
  cases h with
  | openedOk hu hl =>
    obtain rfl := he _ _ (.inl rfl)
    intro p r hp
    simp only at hp
    split at hp
    · rename_i h; cases hp; rw [h]; exact hl
    · exact hm p r hp
  | openedInvalid => exact hm
  | openedOther => exact hm
  | closed hu =>
    intro p r hp
    simp only at hp
    split at hp
    · cases hp
    · exact hm p r hp
  | closedOther => exact hm
  | changed hu ht hin hout =>
    obtain rfl := he _ _ (.inr rfl)
    rename_i q
    intro p r hp
    by_cases h : p <+: q ∧ m p ≠ none
    · obtain ⟨x, h1, h2⟩ := hin p h.1 h.2
      rw [hp] at h2
      cases h1 with
      | invalid hd hs => exact absurd hs (hvalid _ hd.2.2.1)
      | found hd hs => cases h2; exact .found hd hs
      | nothing hd => cases h2; exact .nothing hd
    · rw [hout p h] at hp; exact hm p r hp
  | changedOther => exact hm

theorem specRun_current {compile : Path → List String → Option FilePatterns} {disk : Disk}
    (hvalid : ∀ d, HasToml disk d → SettingsIn compile disk d ≠ none) {m m' : Known}
    {es : List WsEvent} (h : SpecRun compile m es m')
    (he : ∀ e ∈ es, ∀ d' u, e = .opened d' u ∨ e = .fileChanged d' u → d' = disk)
    (hm : ∀ p r, m p = some r → Lookup compile disk p (some r)) :
    ∀ p r, m' p = some r → Lookup compile disk p (some r) := by
  induction h with
  | nil => exact hm
  | cons h hs ih =>
    exact ih (fun e' h' => he e' (by simp [h']))
      (specStep_current hvalid (he _ (by simp)) h hm)

/-- C26 (with the editor and the command line agreeing): if the files did not change, all
configurations are valid, and there is no configuration between the innermost open folder and the
document, a document's settings are those of its nearest configuration. Missing: configurations nested
below the folder, and changes above it, see below. -/
theorem C26_nearest_partial (compile : Path → List String → Option FilePatterns) (disk : Disk)
    (hvalid : ∀ d, HasToml disk d → SettingsIn compile disk d ≠ none) (es : List WsEvent)
    (he : ∀ e ∈ es, ∀ d' u, e = .opened d' u ∨ e = .fileChanged d' u → d' = disk)
    (m : Known) (hm : SpecRun compile (fun _ => none) es m) (u : Url) (path p : Path)
    (hu : FileUrl u path) (hp : Innermost m path p)
    (hno : ∀ d, p <+: d → d <+: path → HasToml disk d → d = p) :
    (∀ d, Nearest disk path d → ∃ s, SettingsIn compile disk d = some s ∧
      settingsForUrl (wsRun compile noWorkspaces es) u = .toml s) ∧
    ((∀ d, ¬ Nearest disk path d) →
      settingsForUrl (wsRun compile noWorkspaces es) u = .fallback Settings.default) := by
  obtain ⟨m', h1, h2, h3, _⟩ := C26_settings compile es u path hu
  obtain rfl := (h1 m).mp hm
  have hcur := specRun_current hvalid hm he (fun p r h => by cases h)
  have hup : ∀ d, Nearest disk path d → Nearest disk p d := by
    intro d hd
    refine nearest_mono hp.1 hd ?_
    by_cases hl : d.length ≤ p.length
    · exact List.prefix_of_prefix_length_le hd.2.1 hp.1 hl
    · have : p <+: d := List.prefix_of_prefix_length_le hp.1 hd.2.1 (by omega)
      rw [hno d this hd.2.1 hd.2.2.1]
      exact List.prefix_refl _
  cases hmp : m p with
  | none => exact absurd hmp hp.2.1
  | some r =>
    have hl := hcur p r hmp
    constructor
    · intro d hd
      cases hl with
      | found hd' hs =>
        obtain rfl := nearest_unique (hup d hd) hd'
        exact ⟨_, hs, h2 p _ _ hp hmp⟩
      | nothing hn => exact absurd (hup d hd) (hn d)
    · intro hn
      cases hl with
      | found hd' hs =>
        obtain ⟨d, hd⟩ := exists_nearest (disk := disk) (p := path)
          ⟨_, hd'.1, hd'.2.1.trans hp.1, hd'.2.2.1⟩
        exact absurd hd (hn d)
      | nothing _ => exact h3 p hp hmp

def fileUrl (path : Path) : Url :=
  { text := "file://" ++ "/".intercalate path, scheme := "file", filePath := some path }

def widthFor (es : List WsEvent) (path : Path) : Option Nat :=
  match settingsForUrl (wsRun exCompile noWorkspaces es) (fileUrl path) with
  | .toml s => some s.lineWidth
  | .fallback _ => none

/-- C26 is false for configurations in subdirectories of the open folder: with `/p` open, the document
`/p/sub/a.R` uses the configuration of `/p` (width 100), although its nearest configuration is that of
`/p/sub` (width 60), which the command line uses for it. -/
theorem C26_nested_ignored :
    widthFor [.opened exDisk (fileUrl ["/", "p"])] ["/", "p", "sub", "a.R"] = some 100 ∧
    widthOf [["/", "p", "sub", "a.R"]] ["/", "p", "sub", "a.R"] = some 60 := by
  decide +kernel

/-- The configuration `/p/air.toml` with a given line width. -/
def exDiskWith (width : Int) : Disk where
  isFile p := p == ["/", "p", "air.toml"]
  readToml _ := some [("format", .table [("line-width", .int width)])]

/-- C26 is false for changes above the open folder: the configuration `/p/air.toml`, which is used for
the folder `/p/w`, changes its width from 100 to 60, the server is told, and goes on with 100. For a
folder `/p` the change is noticed. -/
theorem C26_parent_change_missed :
    widthFor [.opened (exDiskWith 100) (fileUrl ["/", "p", "w"]),
      .fileChanged (exDiskWith 60) (fileUrl ["/", "p", "air.toml"])] ["/", "p", "w", "a.R"] = some 100 ∧
    widthFor [.opened (exDiskWith 100) (fileUrl ["/", "p"]),
      .fileChanged (exDiskWith 60) (fileUrl ["/", "p", "air.toml"])] ["/", "p", "w", "a.R"] = some 60 := by
  decide +kernel

/-- Two nested folders, the inner one opened while its configuration is invalid, then reloaded, then
closed. -/
example :
    let bad : Disk := { exDisk with readToml := fun p =>
      if p == ["/", "p", "air.toml"] then exDisk.readToml p else none }
    let h1 : List WsEvent := [.opened exDisk (fileUrl ["/", "p"]), .opened bad (fileUrl ["/", "p", "sub"])]
    let h2 := h1 ++ [.opened exDisk (fileUrl ["/", "p", "sub"])]
    let h3 := h2 ++ [.fileChanged bad (fileUrl ["/", "p", "sub", ".air.toml"])]
    let f := ["/", "p", "sub", "a.R"]
    widthFor h1 f = some 100 ∧ widthFor h2 f = some 60 ∧ widthFor h3 f = none ∧
      widthFor (h3 ++ [.closed (fileUrl ["/", "p", "sub"])]) f = some 100 := by
  decide +kernel

/-! ## C22 -/

/-- C22: a document is refused iff an exclude rule applies to it or one of its parents, or it is neither
of an included kind nor an R document for the client. Without a panic of the pattern matcher the answer
agrees with that of the command line for the same file and settings, up to R documents of
other names. -/
theorem C22_agree (resolver : Resolver Settings) (dropped : Path → Bool → Bool) (path : Path)
    (languageId : String) (found : List Found)
    (h : DiscoverFiles resolver .matched .matched dropped [(path, .file)] found) (b : Bool)
    (hb : isDocumentExcluded path (Resolver.resolveOrFallback resolver path) languageId = some b) :
    b = false ↔
      Found.file path ∈ found ∨
        ¬ RootExcluded resolver .matched path false ∧ languageId = "r" := by
  have hsel : Found.file path ∈ found ↔
      ¬ RootExcluded resolver .matched path false ∧ Included resolver .matched path := by
    rw [C17_selected _ _ _ _ _ _ h]
    constructor
    · rintro ⟨root, n, rel, hr, h1, h2, h3, _, h5⟩
      simp only [List.mem_singleton, Prod.mk.injEq] at hr
      obtain ⟨rfl, rfl⟩ := hr
      cases rel with
      | nil => exact ⟨by simpa using h3, h5⟩
      | cons c rel =>
        have := congrArg List.length h2
        simp at this
    · rintro ⟨h1, h2⟩
      exact ⟨path, .file, [], by simp, .here _, by simp, by simpa using h1,
        fun before name after he => by simp at he, h2⟩
  rw [hsel]
  simp only [isDocumentExcluded] at hb
  cases he : anyExcludeMatchedPathOrAnyParents path false (Resolver.resolveOrFallback resolver path) with
  | none => rw [he] at hb; cases hb
  | some x =>
    cases x with
    | true =>
      rw [he] at hb
      cases hb
      simp [RootExcluded, he]
    | false =>
      rw [he] at hb
      have hr : ¬ RootExcluded resolver .matched path false := by simp [RootExcluded, he]
      simp only [hr, not_false_eq_true, true_and, Included]
      by_cases hi : anyIncludeMatchedPath path (Resolver.resolveOrFallback resolver path) = true
      · simp only [hi, if_true] at hb
        cases hb; simp [hi]
      · simp only [hi] at hb
        by_cases hl : languageId = "r"
        · simp [hl] at hb; simp [hb, hl]
        · simp [hl] at hb; simp [hb, hl, hi]

end Verif.Lsp
