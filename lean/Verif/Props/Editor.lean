import Verif.Model.Editor

/-!
# C66, C67, C68: which server the editor starts, and when
-/

namespace Verif.Editor

/-! ## C66: the executable -/

/-- C66: in a workspace that is not trusted the executable is the one that comes with the extension, and it exists,
whatever the settings and the environment. -/
theorem C66_untrusted (m : Machine) (h : m.trusted = false) (s : Strategy) (p : Option Path) (b : Path) :
    resolve m s p = some b ↔ b = m.bundled ∧ m.exists_ b = true := by
  simp only [resolve, h, Bool.not_false, if_true, fromBundled]
  split
  · rename_i hb
    constructor
    · intro h; cases h; exact ⟨rfl, hb⟩
    · rintro ⟨rfl, -⟩; rfl
  · rename_i hb
    constructor
    · intro h; cases h
    · rintro ⟨rfl, h⟩; exact absurd h hb

/-- The executable that a strategy prefers is found. -/
def Strategy.Finds (m : Machine) (p : Option Path) : Strategy → Path → Prop
  | .bundled, b => b = m.bundled ∧ m.exists_ b = true
  | .environment, b => m.which = some b ∧ b ≠ ""
  | .path, b => p = some b ∧ b ≠ "" ∧ m.exists_ b = true
  | .other, _ => False

/-- Where to look if the preferred executable is not found. -/
def Strategy.fallback : Strategy → Option Strategy
  | .bundled => some .environment
  | .environment => some .bundled
  | _ => none

/-- C66: in a trusted workspace the strategy decides. The executable of `air.executablePath` is only used if the strategy
is `path`, and then there is no other one. -/
theorem C66_choice (m : Machine) (h : m.trusted = true) (s : Strategy) (p : Option Path) (b : Path) :
    resolve m s p = some b ↔
      s.Finds m p b ∨ (∀ b', ¬ s.Finds m p b') ∧ ∃ s', s.fallback = some s' ∧ s'.Finds m p b := by
  have hB : ∀ b, fromBundled m = some b ↔ Strategy.Finds m p .bundled b := by
    intro b
    simp only [fromBundled, Strategy.Finds]
    split <;> grind
  have hE : ∀ b, fromEnvironment m = some b ↔ Strategy.Finds m p .environment b := by
    intro b
    simp only [fromEnvironment, Strategy.Finds]
    split <;> grind
  have hP : ∀ b, fromPath m p = some b ↔ Strategy.Finds m p .path b := by
    intro b
    simp only [fromPath, Strategy.Finds]
    split <;> grind
  simp only [resolve, h, Bool.not_true, Bool.false_eq_true, if_false]
  cases s with
  | bundled =>
    simp only [Strategy.fallback]
    cases hb : fromBundled m with
    | none =>
      have hn : ∀ b', ¬ Strategy.Finds m p .bundled b' := fun b' hh => by
        rw [← hB, hb] at hh; cases hh
      simp only [hE, hn, false_or, not_false_eq_true, implies_true, true_and]
      exact ⟨fun hh => ⟨_, rfl, hh⟩, fun ⟨_, h1, h2⟩ => by cases h1; exact h2⟩
    | some b' =>
      have hf := (hB b').1 hb
      constructor
      · rintro ⟨⟩; exact .inl hf
      · rintro (hh | ⟨hh, -⟩)
        · rw [← hB, hb] at hh; exact hh
        · exact absurd hf (hh _)
  | environment =>
    simp only [Strategy.fallback]
    cases hb : fromEnvironment m with
    | none =>
      have hn : ∀ b', ¬ Strategy.Finds m p .environment b' := fun b' hh => by
        rw [← hE, hb] at hh; cases hh
      simp only [hB, hn, false_or, not_false_eq_true, implies_true, true_and]
      exact ⟨fun hh => ⟨_, rfl, hh⟩, fun ⟨_, h1, h2⟩ => by cases h1; exact h2⟩
    | some b' =>
      have hf := (hE b').1 hb
      constructor
      · rintro ⟨⟩; exact .inl hf
      · rintro (hh | ⟨hh, -⟩)
        · rw [← hE, hb] at hh; exact hh
        · exact absurd hf (hh _)
  | path =>
    simp only [hP, Strategy.fallback]
    exact ⟨.inl, fun hh => hh.elim id fun ⟨_, _, h, _⟩ => by cases h⟩
  | other =>
    simp only [Strategy.fallback, Strategy.Finds]
    constructor
    · intro h; cases h
    · rintro (h | ⟨-, _, h, -⟩) <;> cases h

/-! ## C67: one server at a time -/

/-- The operations and changes of settings one after the other, from a state. -/
def steps (dirname : Path → Path) (x : Session × Terminal) (es : List Event) : Session × Terminal :=
  es.foldl (Event.run dirname) x

theorem runAll_append (dirname : Path → Path) (es : List Event) (e : Event) :
    runAll dirname (es ++ [e]) = Event.run dirname (runAll dirname es) e := by
  simp [runAll, List.foldl_append]

/-- An invariant of all that can happen. -/
theorem runs_induct {dirname : Path → Path} {P : Session × Terminal → Prop} {ok : Event → Prop} (h0 : P ({}, {}))
    (h1 : ∀ x e, ok e → P x → P (Event.run dirname x e)) :
    ∀ es, (∀ e ∈ es, ok e) → P (runAll dirname es) := by
  intro es hes
  suffices ∀ (es : List Event) x, P x → (∀ e ∈ es, ok e) → P (es.foldl (Event.run dirname) x) from this es _ h0 hes
  intro es
  induction es with
  | nil => intro x hx _; exact hx
  | cons e es ih =>
    intro x hx hes
    exact ih _ (h1 x e (hes e (by simp)) hx) fun e he => hes e (by simp [he])

/-- The fields of the class agree with each other. -/
def Session.Agrees (s : Session) : Prop :=
  (s.state = true ∧ ∃ k b, s.client = some k ∧ s.binary = some b) ∨
  (s.state = false ∧ s.client = none ∧ s.binary = none)

theorem start_agrees (w : World) (s : Session) (h : s.Agrees) : (startImpl w s).1.Agrees := by
  unfold startImpl
  split
  · exact h
  · dsimp only
    split
    · exact h
    · split
      · exact .inl ⟨rfl, _, _, rfl, rfl⟩
      · exact h

theorem stop_agrees (w : World) (s : Session) (h : s.Agrees) : (stopImpl w s).1.Agrees := by
  unfold stopImpl
  split
  · exact h
  · exact .inr ⟨rfl, rfl, rfl⟩

theorem op_agrees (w : World) (s : Session) (h : s.Agrees) (o : Op) : (o.run w s).1.Agrees := by
  cases o with
  | start => exact start_agrees w s h
  | stop => exact stop_agrees w s h
  | restart =>
    simp only [Op.run, restartImpl]
    split
    · have hs := stop_agrees w s h
      split
      · rename_i heq
        rw [heq] at hs
        exact hs
      · rename_i heq
        rw [heq] at hs
        exact start_agrees w _ hs
    · exact start_agrees w s h

/-- C67: the state is `started` exactly if there are a client and the path of its executable, after everything that can
happen. -/
theorem C67_consistent (dirname : Path → Path) (es : List Event) : (runAll dirname es).1.Agrees := by
  refine runs_induct (ok := fun _ => True) (P := fun x => x.1.Agrees) (.inr ⟨rfl, rfl, rfl⟩) (fun x e _ hx => ?_) es (by simp)
  cases e with
  | op w o => exact op_agrees w _ hx o
  | config c a => exact hx

/-- Does the event happen in a world in which clients stop when they are asked to? -/
def Event.Stops : Event → Prop
  | .op w _ => w.stops = true
  | .config .. => True

/-- The running servers are the ones of the client. -/
def Session.Lone (s : Session) : Prop :=
  (∃ k b, s.state = true ∧ s.client = some k ∧ s.binary = some b ∧ k < s.next ∧ s.alive = [(k, b)]) ∨
  (s.state = false ∧ s.client = none ∧ s.binary = none ∧ s.alive = [])

theorem start_lone (w : World) (s : Session) (h : s.Lone) : (startImpl w s).1.Lone := by
  unfold startImpl
  split
  · exact h
  · rename_i hs
    obtain ⟨k, b, h1, -⟩ | ⟨h1, h2, h3, h4⟩ := h
    · exact absurd h1 hs
    · dsimp only
      split
      · exact .inr ⟨h1, h2, h3, h4⟩
      · split
        · exact .inl ⟨_, _, rfl, rfl, rfl, Nat.lt_succ_self _, by rw [h4]⟩
        · exact .inr ⟨h1, h2, h3, h4⟩

theorem stop_lone (w : World) (hw : w.stops = true) (s : Session) (h : s.Lone) : (stopImpl w s).1.Lone := by
  unfold stopImpl
  split
  · exact h
  · rename_i hs
    obtain ⟨k, b, h1, h2, h3, h4, h5⟩ | ⟨h1, -⟩ := h
    · refine .inr ⟨rfl, rfl, rfl, ?_⟩
      simp [h2, hw, h5]
    · simp [h1] at hs

/-- C67: if no client fails to stop, then there is never more than one server. There is one exactly if the state is
`started`, and the path that the commands of the extension use is the one of its executable. -/
theorem C67_one_server (dirname : Path → Path) (es : List Event) (hes : ∀ e ∈ es, e.Stops) :
    ((runAll dirname es).1.state = true ∧
      ∃ k b, (runAll dirname es).1.alive = [(k, b)] ∧ (runAll dirname es).1.client = some k ∧
        (runAll dirname es).1.binary = some b) ∨
    ((runAll dirname es).1.state = false ∧ (runAll dirname es).1.alive = []) := by
  have h : (runAll dirname es).1.Lone := by
    refine runs_induct (ok := Event.Stops) (P := fun x => x.1.Lone) (.inr ⟨rfl, rfl, rfl, rfl⟩)
      (fun x e he hx => ?_) es hes
    cases e with
    | config c a => exact hx
    | op w o =>
      cases o with
      | start => exact start_lone w _ hx
      | stop => exact stop_lone w he _ hx
      | restart =>
        simp only [Event.run, Op.run, restartImpl]
        split
        · have hs := stop_lone w he _ hx
          split
          · rename_i heq
            rw [heq] at hs
            exact hs
          · rename_i heq
            rw [heq] at hs
            exact start_lone w _ hs
        · exact start_lone w _ hx
  obtain ⟨k, b, h1, h2, h3, -, h5⟩ | ⟨h1, -, -, h4⟩ := h
  · exact .inl ⟨h1, k, b, h5, h2, h3⟩
  · exact .inr ⟨h1, h4⟩

/-- The executable that is started in a world. -/
def World.Picks (w : World) (b : Path) : Prop :=
  let c := w.config (rootFolder w.machine.exists_ w.cwd w.folders)
  resolve w.machine (c.strategy.getD .bundled) c.path = some b

/-- C67: starting a server that is started does nothing, nor does stopping a server that is stopped. Restarting always
gives a new server for the settings of that time, if the client stops and starts and there is an executable. -/
theorem C67_operations (w : World) (dirname : Path → Path) (es : List Event) :
    let s := (runAll dirname es).1
    (s.state = true → Op.start.run w s = (s, [], true)) ∧ (s.state = false → Op.stop.run w s = (s, [], true)) ∧
    (w.stops = true → w.starts = true → ∀ b, w.Picks b →
      (Op.restart.run w s).1.state = true ∧ (Op.restart.run w s).1.binary = some b ∧
      ∃ k, (Op.restart.run w s).1.client = some k ∧ s.client ≠ some k ∧ (k, b) ∈ (Op.restart.run w s).1.alive) := by
  intro s
  have hn : ∀ k, s.client = some k → k < s.next := by
    have : ∀ es, (∀ e ∈ es, True) → (∀ k, (runAll dirname es).1.client = some k → k < (runAll dirname es).1.next) := by
      refine runs_induct (ok := fun _ => True) (P := fun x => ∀ k, x.1.client = some k → k < x.1.next) (by simp) ?_
      intro x e _ hx
      have hst : ∀ w s, (∀ k, s.client = some k → k < s.next) →
          ∀ k, (startImpl w s).1.client = some k → k < (startImpl w s).1.next := by
        intro w s hs k
        unfold startImpl
        split
        · exact hs k
        · dsimp only
          split
          · exact hs k
          · split
            · intro h; cases h; exact Nat.lt_succ_self _
            · intro h; exact Nat.lt_succ_of_lt (hs k h)
      have hsp : ∀ w s, (∀ k, s.client = some k → k < s.next) →
          ∀ k, (stopImpl w s).1.client = some k → k < (stopImpl w s).1.next := by
        intro w s hs k
        unfold stopImpl
        split
        · exact hs k
        · intro h; cases h
      cases e with
      | config c a => exact hx
      | op w o =>
        cases o with
        | start => exact hst w _ hx
        | stop => exact hsp w _ hx
        | restart =>
          simp only [Event.run, Op.run, restartImpl]
          split
          · have hs := hsp w _ hx
            split
            · rename_i heq
              rw [heq] at hs
              exact hs
            · rename_i heq
              rw [heq] at hs
              exact hst w _ hs
          · exact hst w _ hx
    exact this es (by simp)
  refine ⟨fun h => by simp [Op.run, startImpl, h], fun h => by simp [Op.run, stopImpl, h], fun hw hv b hb => ?_⟩
  have hst : ∀ s' : Session, s'.state = false → startImpl w s' =
      ({ state := true, client := some s'.next, binary := some b, next := s'.next + 1,
         alive := (s'.next, b) :: s'.alive }, [.started b (rootFolder w.machine.exists_ w.cwd w.folders)], true) := by
    intro s' hs'
    simp only [World.Picks] at hb
    simp [startImpl, hs', hb, hv]
  cases hs : s.state with
  | false =>
    rw [show Op.restart.run w s = startImpl w s by simp [Op.run, restartImpl, hs], hst s hs]
    exact ⟨rfl, rfl, _, rfl, fun h => Nat.lt_irrefl _ (hn _ h), by simp⟩
  | true =>
    have hp : stopImpl w s = (({ s with state := false, client := none, binary := none, alive := (stopImpl w s).1.alive } :
        Session), [.stopped], true) := by
      simp [stopImpl, hs, hw]
    simp only [Op.run, restartImpl, hs, if_true]
    rw [hp]
    dsimp only
    rw [hst _ rfl]
    exact ⟨rfl, rfl, _, rfl, fun h => Nat.lt_irrefl _ (hn _ h), by simp⟩

/-- C67 fails if a client fails to stop: two servers are running after that, and a restart in which this happens leaves
the editor without a client. -/
theorem C67_failing_stop : ∃ (w v : World) (dirname : Path → Path),
    (runAll dirname [.op w .start, .op v .stop, .op w .start]).1.alive.length = 2 ∧
    (runAll dirname [.op w .start, .op v .restart]).1.client = none := by
  refine ⟨⟨⟨true, fun _ => true, none, "air"⟩, [], ⟨"/", ""⟩, fun _ => ⟨none, none, fun _ => none⟩, true, true⟩,
    ⟨⟨true, fun _ => true, none, "air"⟩, [], ⟨"/", ""⟩, fun _ => ⟨none, none, fun _ => none⟩, true, false⟩, id, ?_⟩
  decide

/-! ## C66 for all that is running -/

/-- The event happens in a workspace that is not trusted; the extension comes with the executable `b`. -/
def Event.Untrusted (b : Path) : Event → Prop
  | .op w _ => w.machine.trusted = false ∧ w.machine.bundled = b
  | .config .. => True

/-- C66: as long as the workspace is not trusted, no other executable than the one of the extension is started,
whatever the settings are and however often the server is restarted. -/
theorem C66_running (dirname : Path → Path) (b : Path) (es : List Event) (hes : ∀ e ∈ es, e.Untrusted b) :
    (∀ a ∈ (runAll dirname es).1.alive, a.2 = b) ∧ ∀ b', (runAll dirname es).1.binary = some b' → b' = b := by
  have hst : ∀ w s, w.machine.trusted = false ∧ w.machine.bundled = b →
      ((∀ a ∈ s.alive, a.2 = b) ∧ ∀ b', s.binary = some b' → b' = b) →
      (∀ a ∈ (startImpl w s).1.alive, a.2 = b) ∧ ∀ b', (startImpl w s).1.binary = some b' → b' = b := by
    intro w s hw hs
    unfold startImpl
    split
    · exact hs
    · dsimp only
      split
      · exact hs
      · rename_i b' hb'
        have := ((C66_untrusted w.machine hw.1 _ _ _).1 hb').1.trans hw.2
        split
        · refine ⟨fun a ha => ?_, fun c hc => by cases hc; exact this⟩
          rcases List.mem_cons.1 ha with rfl | ha
          · exact this
          · exact hs.1 a ha
        · exact hs
  have hsp : ∀ w s, ((∀ a ∈ s.alive, a.2 = b) ∧ ∀ b', s.binary = some b' → b' = b) →
      (∀ a ∈ (stopImpl w s).1.alive, a.2 = b) ∧ ∀ b', (stopImpl w s).1.binary = some b' → b' = b := by
    intro w s hs
    unfold stopImpl
    split
    · exact hs
    · refine ⟨fun a ha => hs.1 a ?_, fun _ h => by cases h⟩
      dsimp only at ha
      split at ha
      · split at ha
        · exact (List.mem_filter.1 ha).1
        · exact ha
      · exact ha
  refine runs_induct (ok := Event.Untrusted b)
    (P := fun x => (∀ a ∈ x.1.alive, a.2 = b) ∧ ∀ b', x.1.binary = some b' → b' = b) (by simp) (fun x e he hx => ?_) es hes
  cases e with
  | config c a => exact hx
  | op w o =>
    cases o with
    | start => exact hst w _ he hx
    | stop => exact hsp w _ hx
    | restart =>
      simp only [Event.run, Op.run, restartImpl]
      split
      · have hs := hsp w _ hx
        split
        · rename_i heq
          rw [heq] at hs
          exact hs
        · rename_i heq
          rw [heq] at hs
          exact hst w _ he hs
      · exact hst w _ he hx

/-! ## C68: the `PATH` of terminals -/

/-- Server and terminals agree. -/
def Mirrors (dirname : Path → Path) (x : Session × Terminal) : Prop :=
  (x.1.state = true ∧ ∃ b f, x.1.binary = some b ∧ x.2.dir = some (dirname b) ∧ x.2.folder = some f ∧
    (x.2.contributed = none ∨ x.2.contributed = some (dirname b))) ∨
  (x.1.state = false ∧ x.2 = {})

theorem start_mirrors {dirname : Path → Path} (w : World) (x : Session × Terminal) (h : Mirrors dirname x) :
    Mirrors dirname ((startImpl w x.1).1, (startImpl w x.1).2.1.foldl (Terminal.onChange dirname w.config) x.2) := by
  unfold startImpl
  split
  · exact h
  · rename_i hs
    dsimp only
    split
    · exact h
    · split
      · refine .inl ⟨rfl, _, _, rfl, rfl, rfl, ?_⟩
        simp only [List.foldl, Terminal.onChange, Terminal.update]
        split
        · exact .inr rfl
        · exact .inl rfl
      · obtain ⟨h1, -⟩ | h := h
        · exact absurd h1 hs
        · exact .inr h

theorem stop_mirrors {dirname : Path → Path} (w : World) (x : Session × Terminal) (h : Mirrors dirname x) :
    Mirrors dirname ((stopImpl w x.1).1, (stopImpl w x.1).2.1.foldl (Terminal.onChange dirname w.config) x.2) := by
  unfold stopImpl
  split
  · exact h
  · exact .inr ⟨rfl, rfl⟩

theorem op_mirrors {dirname : Path → Path} (w : World) (o : Op) (x : Session × Terminal) (h : Mirrors dirname x) :
    Mirrors dirname (Event.run dirname x (.op w o)) := by
  cases o with
  | start => exact start_mirrors w x h
  | stop => exact stop_mirrors w x h
  | restart =>
    simp only [Event.run, Op.run, restartImpl]
    split
    · have hs := stop_mirrors w x h
      split
      · rename_i heq
        rw [heq] at hs
        exact hs
      · rename_i heq
        rw [heq] at hs
        have := start_mirrors w _ hs
        simp only [List.foldl_append]
        exact this
    · exact start_mirrors w x h

theorem all_mirrors (dirname : Path → Path) (es : List Event) : Mirrors dirname (runAll dirname es) := by
  refine runs_induct (ok := fun _ => True) (.inr ⟨rfl, rfl⟩) (fun x e _ hx => ?_) es (by simp)
  cases e with
  | op w o => exact op_mirrors w o x hx
  | config c a =>
    simp only [Event.run, Terminal.onConfig]
    split
    · obtain ⟨h1, b, f, h2, h3, h4, h5⟩ | ⟨h1, h2⟩ := hx
      · refine .inl ⟨h1, b, f, h2, ?_, ?_, ?_⟩ <;> simp only [Terminal.update, h3, h4]
        split
        · exact .inr rfl
        · exact .inl rfl
      · refine .inr ⟨h1, ?_⟩
        rw [h2]
        rfl
    · exact hx

/-- C68: terminals only get the directory of the executable of the current server, and nothing if there is none, after
everything that can happen. -/
theorem C68_mirrors (dirname : Path → Path) (es : List Event) (d : Path)
    (h : (runAll dirname es).2.contributed = some d) :
    (runAll dirname es).1.state = true ∧ ∃ b, (runAll dirname es).1.binary = some b ∧ d = dirname b := by
  obtain ⟨h1, b, -, h2, -, -, h5⟩ | ⟨-, h2⟩ := all_mirrors dirname es
  · refine ⟨h1, b, h2, ?_⟩
    rcases h5 with h5 | h5 <;> rw [h5] at h <;> cases h
    rfl
  · rw [h2] at h
    cases h

/-- C68: a change of settings matters to terminals exactly if it affects the declared setting; then the value of the
other setting that the code reads is used from then on, if a server is running. -/
theorem C68_heard (dirname : Path → Path) (es : List Event) (c : Folder → Config) (affected : String → Bool) :
    (affected "air.addExecutableToTerminalPath" = false →
      runAll dirname (es ++ [.config c affected]) = runAll dirname es) ∧
    (affected "air.addExecutableToTerminalPath" = true → (runAll dirname es).1.state = true →
      ∃ b f, (runAll dirname es).1.binary = some b ∧ (runAll dirname es).2.folder = some f ∧
        ((runAll dirname (es ++ [.config c affected])).2.contributed = none ↔
          (c f).flag "air.addExecutableToPath" = some false)) := by
  have he : runAll dirname (es ++ [.config c affected]) =
      ((runAll dirname es).1, (runAll dirname es).2.onConfig c affected) := by
    simp only [runAll, List.foldl_append, List.foldl_cons, List.foldl_nil, Event.run]
  rw [he]
  refine ⟨fun ha => by simp [Terminal.onConfig, ha], fun ha hs => ?_⟩
  obtain ⟨-, b, f, h2, h3, h4, -⟩ | ⟨h1, -⟩ := all_mirrors dirname es
  · refine ⟨b, f, h2, h4, ?_⟩
    simp only [Terminal.onConfig, ha, if_true, Terminal.update, h3, h4, Config.addsToPath]
    have key : ∀ x : Option Bool, (if x.getD true = true then some (dirname b) else none) = none ↔ x = some false := by
      intro x
      match x with
      | none => simp
      | some true => simp
      | some false => simp
    exact key _
  · exact absurd (hs.symm.trans h1) (by decide)

/-- Nobody sets `air.addExecutableToPath`, a setting that the extension does not declare. -/
def Event.Undeclared : Event → Prop
  | .op w _ => ∀ f, (w.config f).flag "air.addExecutableToPath" = none
  | .config c _ => ∀ f, (c f).flag "air.addExecutableToPath" = none

/-- C68 fails for the setting: the declared setting `air.addExecutableToTerminalPath` is never read, so that terminals
always get the directory while a server is running, whatever its value. -/
theorem C68_setting_ignored (dirname : Path → Path) (es : List Event) (hes : ∀ e ∈ es, e.Undeclared)
    (h : (runAll dirname es).1.state = true) :
    ∃ b, (runAll dirname es).1.binary = some b ∧ (runAll dirname es).2.contributed = some (dirname b) := by
  have key : ∀ es, (∀ e ∈ es, e.Undeclared) →
      (runAll dirname es).2.folder.isSome → ∃ d, (runAll dirname es).2.contributed = some d ∧
        (runAll dirname es).2.dir = some d := by
    refine runs_induct (ok := Event.Undeclared)
      (P := fun x => x.2.folder.isSome → ∃ d, x.2.contributed = some d ∧ x.2.dir = some d) (by simp) (fun x e he hx => ?_)
    cases e with
    | config c a =>
      simp only [Event.run, Terminal.onConfig]
      split
      · unfold Terminal.update
        split
        · rename_i f d hf hd
          intro _
          exact ⟨d, by simp [Config.addsToPath, he f], hd⟩
        · exact hx
      · exact hx
    | op w o =>
      have hc : ∀ cs : List Change, ∀ t : Terminal, (t.folder.isSome → ∃ d, t.contributed = some d ∧ t.dir = some d) →
          (cs.foldl (Terminal.onChange dirname w.config) t).folder.isSome →
          ∃ d, (cs.foldl (Terminal.onChange dirname w.config) t).contributed = some d ∧
            (cs.foldl (Terminal.onChange dirname w.config) t).dir = some d := by
        intro cs
        induction cs with
        | nil => intro t ht; exact ht
        | cons c cs ih =>
          intro t ht
          refine ih _ ?_
          cases c with
          | stopped => intro h; cases h
          | started b f => intro _; exact ⟨dirname b, by simp [Terminal.onChange, Terminal.update, Config.addsToPath, he f], rfl⟩
      exact hc _ _ hx
  obtain ⟨h1, b, f, h2, h3, h4, -⟩ | ⟨h1, -⟩ := all_mirrors dirname es
  · obtain ⟨d, hd, hd'⟩ := key es hes (by rw [h4]; rfl)
    rw [h3] at hd'
    cases hd'
    exact ⟨b, h2, hd⟩
  · rw [h1] at h
    cases h

/-! ## Example -/

namespace Ex

/-- A trusted machine with a bundled executable and one on the path. -/
def machine : Machine := ⟨true, fun p => p == "/ext/bundled/bin/air" || p == "/home/r" || p == "/home/r/pkg", some "/usr/bin/air",
  "/ext/bundled/bin/air"⟩

/-- The user has turned off the contribution to `PATH`, and prefers the executable on it. -/
def world (s : Option Strategy) : World :=
  ⟨machine, [⟨"/home/r/pkg", "pkg"⟩, ⟨"/home/r", "r"⟩, ⟨"/gone", "gone"⟩], ⟨"/", ""⟩,
    fun _ => ⟨s, none, fun k => if k = "air.addExecutableToTerminalPath" then some false else none⟩, true, true⟩

/-- Start with the default settings, then restart with others. -/
def session : List Event :=
  [.op (world none) .start, .op (world none) .start, .op (world (some .environment)) .restart,
    .config (world none).config (fun k => k == "air.addExecutableToTerminalPath")]

end Ex

open Ex

example : resolve machine .bundled none = some "/ext/bundled/bin/air" ∧
    resolve { machine with exists_ := fun _ => false } .bundled none = some "/usr/bin/air" ∧
    resolve machine .environment none = some "/usr/bin/air" ∧ resolve machine .path none = none ∧
    resolve { machine with trusted := false } .environment none = some "/ext/bundled/bin/air" := by decide

example : (∀ e ∈ session, e.Stops) ∧ (∀ e ∈ session, e.Undeclared) := by
  simp [session, Event.Stops, Event.Undeclared, world]

example : (runAll (fun p => (p.dropEnd 4).toString) session).1 =
    ⟨true, some 1, some "/usr/bin/air", 2, [(1, "/usr/bin/air")]⟩ ∧
    (runAll (fun p => if p = "/usr/bin/air" then "/usr/bin" else "?") session).2.contributed = some "/usr/bin" := by
  decide

end Verif.Editor
