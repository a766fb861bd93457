import Verif.Model.Logging

/-!
# C76: what is logged
-/

namespace Verif.Logging

/-! ## Which directive decides -/

/-- Among the directives in the order in which they were given: the last one of those with the longest target that the
message's target begins with. -/
def Wins (raw : List Directive) (t : Target) (d : Directive) : Prop :=
  ∃ a b, raw = a ++ d :: b ∧ d.cares t = true ∧ (∀ e ∈ a, e.cares t = true → e.size ≤ d.size) ∧
    ∀ e ∈ b, e.cares t = true → e.size < d.size

def Sorted (ds : List Directive) : Prop := ds.Pairwise (fun d e => e.size ≤ d.size)

theorem size_of_target {d e : Directive} (h : d.target = e.target) : d.size = e.size := by simp [Directive.size, h]

theorem cares_of_target {d e : Directive} (h : d.target = e.target) (t : Target) : d.cares t = e.cares t := by
  simp [Directive.cares, h]

theorem same_target {d e : Directive} {t : Target} (hd : d.cares t = true) (he : e.cares t = true)
    (h : d.size = e.size) : d.target = e.target := by
  obtain ⟨dt, dl⟩ := d
  obtain ⟨et, el⟩ := e
  match dt, et with
  | none, none => rfl
  | some p, none => simp [Directive.size] at h
  | none, some q => simp [Directive.size] at h
  | some p, some q =>
    simp only [Directive.cares, List.isPrefixOf_iff_prefix] at hd he
    simp only [Directive.size, Nat.add_right_cancel_iff] at h
    rw [List.prefix_iff_eq_take] at hd he
    simp only
    rw [hd, he, h]

theorem before_size {d e : Directive} (h : d.before e = true) : e.size ≤ d.size := by
  simp only [Directive.before, Bool.or_eq_true, decide_eq_true_eq, Bool.and_eq_true, beq_iff_eq] at h
  omega

theorem not_before_size {d e : Directive} (h : ¬ d.before e = true) : d.size ≤ e.size := by
  simp only [Directive.before, Bool.or_eq_true, decide_eq_true_eq, Bool.and_eq_true, beq_iff_eq, not_or] at h
  omega

theorem mem_add {d e : Directive} {ds : List Directive} (h : e ∈ add d ds) : e = d ∨ e ∈ ds := by
  induction ds with
  | nil => simpa [add] using h
  | cons x xs ih =>
    simp only [add] at h
    split at h
    · rcases List.mem_cons.1 h with h | h
      · exact .inl h
      · exact .inr (List.mem_cons_of_mem _ h)
    · split at h
      · exact List.mem_cons.1 h
      · rcases List.mem_cons.1 h with h | h
        · exact .inr (h ▸ List.mem_cons_self)
        · rcases ih h with h | h
          · exact .inl h
          · exact .inr (List.mem_cons_of_mem _ h)

theorem add_sorted {d : Directive} {ds : List Directive} (h : Sorted ds) : Sorted (add d ds) := by
  induction ds with
  | nil => simp [add, Sorted]
  | cons x xs ih =>
    obtain ⟨h1, h2⟩ := List.pairwise_cons.1 h
    simp only [add]
    split
    · rename_i ht
      exact List.pairwise_cons.2 ⟨fun e he => size_of_target ht ▸ h1 e he, h2⟩
    · split
      · rename_i hb
        refine List.pairwise_cons.2 ⟨fun e he => ?_, h⟩
        rcases List.mem_cons.1 he with rfl | he
        · exact before_size hb
        · exact Nat.le_trans (h1 e he) (before_size hb)
      · rename_i hb
        refine List.pairwise_cons.2 ⟨fun e he => ?_, ih h2⟩
        rcases mem_add he with rfl | he
        · exact not_before_size hb
        · exact h1 e he

/-- What a new directive changes. -/
theorem find_add (d : Directive) (t : Target) {ds : List Directive} (h : Sorted ds) :
    (add d ds).find? (fun e => e.cares t) =
      match ds.find? (fun e => e.cares t) with
      | some e => if d.cares t = true ∧ e.size ≤ d.size then some d else some e
      | none => if d.cares t = true then some d else none := by
  induction ds with
  | nil => simp only [add, List.find?_cons, List.find?_nil]; cases d.cares t <;> rfl
  | cons x xs ih =>
    obtain ⟨h1, h2⟩ := List.pairwise_cons.1 h
    simp only [add]
    split
    · rename_i ht
      have hc := cares_of_target ht t
      cases hx : x.cares t with
      | true =>
        have hd : d.cares t = true := hc.trans hx
        simp [List.find?_cons, hx, hd, size_of_target ht]
      | false =>
        have hd : d.cares t = false := hc.trans hx
        simp only [List.find?_cons, hx, hd, Bool.false_eq_true, false_and, if_false]
        cases xs.find? (fun e => e.cares t) <;> rfl
    · rename_i ht
      split
      · rename_i hb
        cases hd : d.cares t with
        | true =>
          rw [List.find?_cons, hd]
          cases hf : (x :: xs).find? (fun e => e.cares t) with
          | none => simp
          | some e =>
            have he : e.size ≤ x.size := by
              rcases List.mem_cons.1 (List.mem_of_find?_eq_some hf) with rfl | he
              · exact Nat.le_refl _
              · exact h1 e he
            simp [Nat.le_trans he (before_size hb)]
        | false =>
          rw [List.find?_cons, hd]
          cases hf : (x :: xs).find? (fun e => e.cares t) <;> simp
      · rename_i hb
        cases hx : x.cares t with
        | true =>
          simp only [List.find?_cons, hx]
          have hn : ¬ (d.cares t = true ∧ x.size ≤ d.size) := by
            rintro ⟨hd, hs⟩
            exact ht (same_target hd hx (Nat.le_antisymm (not_before_size hb) hs))
          rw [if_neg hn]
        | false =>
          simp only [List.find?_cons, hx]
          exact ih h2

theorem find_adds (t : Target) : ∀ (raw : List Directive) (ds : List Directive), Sorted ds →
    Sorted (raw.foldl (fun ds d => add d ds) ds) ∧
    (∀ d, (raw.foldl (fun ds d => add d ds) ds).find? (fun e => e.cares t) = some d →
      Wins raw t d ∧ (∀ e, ds.find? (fun e => e.cares t) = some e → e.size ≤ d.size) ∨
      ds.find? (fun e => e.cares t) = some d ∧ ∀ e ∈ raw, e.cares t = true → e.size < d.size) ∧
    ((raw.foldl (fun ds d => add d ds) ds).find? (fun e => e.cares t) = none →
      ds.find? (fun e => e.cares t) = none ∧ ∀ e ∈ raw, e.cares t = false)
  | [], ds, hs => ⟨hs, fun d h => .inr ⟨h, by simp⟩, fun h => ⟨h, by simp⟩⟩
  | x :: raw, ds, hs => by
    obtain ⟨h1, h2, h3⟩ := find_adds t raw (add x ds) (add_sorted hs)
    have hf := find_add x t hs
    rw [List.foldl_cons]
    refine ⟨h1, fun d hd => ?_, fun hn => ?_⟩
    · rcases h2 d hd with ⟨⟨a, b, rfl, hc, ha, hb⟩, hmax⟩ | ⟨hadd, hraw⟩
      · left
        refine ⟨⟨x :: a, b, rfl, hc, fun e he hce => ?_, hb⟩, fun e he => ?_⟩
        · rcases List.mem_cons.1 he with rfl | he
          · rw [hf] at hmax
            cases hfd : ds.find? (fun e => e.cares t) with
            | none => rw [hfd] at hmax; simp only [hce, if_true] at hmax; exact hmax _ rfl
            | some y =>
              rw [hfd] at hmax
              simp only [hce, true_and] at hmax
              split at hmax
              · exact hmax _ rfl
              · have := hmax _ rfl; omega
          · exact ha e he hce
        · rw [hf, he] at hmax
          dsimp only at hmax
          split at hmax
          · rename_i hxe
            exact Nat.le_trans hxe.2 (hmax _ rfl)
          · exact hmax _ rfl
      · rw [hf] at hadd
        cases hfd : ds.find? (fun e => e.cares t) with
        | none =>
          rw [hfd] at hadd
          simp only at hadd
          split at hadd
          · rename_i hx
            cases hadd
            exact .inl ⟨⟨[], raw, rfl, hx, by simp, hraw⟩, by simp⟩
          · cases hadd
        | some y =>
          rw [hfd] at hadd
          simp only at hadd
          split at hadd
          · rename_i hx
            cases hadd
            exact .inl ⟨⟨[], raw, rfl, hx.1, by simp, hraw⟩, by simp [hx.2]⟩
          · rename_i hx
            cases hadd
            refine .inr ⟨rfl, fun e he hce => ?_⟩
            rcases List.mem_cons.1 he with rfl | he
            · rw [not_and] at hx
              have := hx hce
              omega
            · exact hraw e he hce
    · obtain ⟨h4, h5⟩ := h3 hn
      rw [hf] at h4
      cases hfd : ds.find? (fun e => e.cares t) with
      | none =>
        rw [hfd] at h4
        simp only [ite_eq_right_iff, reduceCtorEq, imp_false, Bool.not_eq_true] at h4
        refine ⟨rfl, fun e he => ?_⟩
        rcases List.mem_cons.1 he with rfl | he
        · exact h4
        · exact h5 e he
      | some y =>
        rw [hfd] at h4
        simp only at h4
        split at h4 <;> cases h4

/-- The directives in the order in which they are given: those of the user for dependencies, then those for air. -/
def given (env : Env) (level : Option Level) (deps : Option String) : List Directive :=
  (match env.dependencies deps with
    | some d => (env.parse d).getD []
    | none => []) ++ crateNames.map fun n => ⟨some n, (env.level level).rank⟩

theorem logFilter_eq (env : Env) (level : Option Level) (deps : Option String) :
    logFilter env level deps = (given env level deps).foldl (fun ds d => add d ds) [] := by
  have h : ∀ (ns : List Target) (l : Level) (ds : List Directive),
      ns.foldl (fun ds n => add ⟨some n, l.rank⟩ ds) ds =
      (ns.map fun n => (⟨some n, l.rank⟩ : Directive)).foldl (fun ds d => add d ds) ds := by
    intro ns l
    induction ns with
    | nil => intro ds; rfl
    | cons n ns ih => intro ds; simp [ih]
  simp only [logFilter, withCrates, given, List.foldl_append, h]
  congr 1
  cases env.dependencies deps with
  | none => rfl
  | some d => simp only; cases env.parse d <;> rfl

/-- The last element with a property, and its maximum. -/
theorem wins_exists (t : Target) (raw : List Directive) (h : ∃ d ∈ raw, d.cares t = true) : ∃ d, Wins raw t d := by
  obtain ⟨h1, h2, h3⟩ := find_adds t raw [] .nil
  cases hf : (raw.foldl (fun ds d => add d ds) []).find? (fun e => e.cares t) with
  | none =>
    obtain ⟨d, hd, hc⟩ := h
    rw [(h3 hf).2 d hd] at hc
    cases hc
  | some d =>
    rcases h2 d hf with h | h
    · exact ⟨d, h.1⟩
    · cases h.1

theorem wins_level {raw : List Directive} {t : Target} {d e : Directive} (hd : Wins raw t d) (he : Wins raw t e) : d = e := by
  obtain ⟨a, b, rfl, hc, h1, h2⟩ := hd
  obtain ⟨a', b', heq, hc', h1', h2'⟩ := he
  rw [List.append_eq_append_iff] at heq
  rcases heq with ⟨m, rfl, hm⟩ | ⟨m, rfl, hm⟩
  · cases m with
    | nil => cases hm; rfl
    | cons y m =>
      simp only [List.cons_append, List.cons.injEq] at hm
      obtain ⟨rfl, rfl⟩ := hm
      have := h2 e (by simp) hc'
      have := h1' d (by simp) hc
      omega
  · cases m with
    | nil => simp at hm; exact hm.1.symm
    | cons y m =>
      simp only [List.cons_append, List.cons.injEq] at hm
      obtain ⟨rfl, rfl⟩ := hm
      have := h2' d (by simp) hc
      have := h1 e (by simp) hc'
      omega

/-- C76: a message is logged exactly if the directive that wins allows its level. -/
theorem C76_decides (env : Env) (level : Option Level) (deps : Option String) (t : Target) (l : Level) :
    enabled (logFilter env level deps) t l = true ↔
      ∃ d, Wins (given env level deps) t d ∧ l.rank ≤ d.level := by
  obtain ⟨h1, h2, h3⟩ := find_adds t (given env level deps) [] .nil
  rw [logFilter_eq, enabled]
  cases hf : ((given env level deps).foldl (fun ds d => add d ds) []).find? (fun e => e.cares t) with
  | none =>
    simp only [Bool.false_eq_true, false_iff, not_exists, not_and]
    rintro d ⟨a, b, hab, hc, -⟩
    have := (h3 hf).2 d (by rw [hab]; simp)
    rw [this] at hc
    cases hc
  | some d =>
    have hw : Wins (given env level deps) t d := by
      rcases h2 d hf with h | h
      · exact h.1
      · cases h.1
    simp only [decide_eq_true_eq]
    constructor
    · exact fun h => ⟨d, hw, h⟩
    · rintro ⟨e, he, hl⟩
      rw [wins_level hw he]
      exact hl

/-- Does the target begin with the name of a crate of air? -/
def Ours (t : Target) : Prop := ∃ n ∈ crateNames, n <+: t

/-- C76: without levels for dependencies the log level alone decides about messages of air's crates. The environment
variable comes before the client's setting, which comes before the default; an unknown value of the variable is
ignored. -/
theorem C76_level (env : Env) (level : Option Level) (deps : Option String) (h : env.dependencies deps = none)
    (t : Target) (l : Level) :
    enabled (logFilter env level deps) t l = true ↔ Ours t ∧ l.rank ≤ (env.level level).rank := by
  rw [C76_decides]
  have hg : given env level deps = crateNames.map fun n => ⟨some n, (env.level level).rank⟩ := by
    simp [given, h]
  rw [hg]
  constructor
  · rintro ⟨d, ⟨a, b, hab, hc, -⟩, hl⟩
    have hd : d ∈ crateNames.map fun n => (⟨some n, (env.level level).rank⟩ : Directive) := by rw [hab]; simp
    obtain ⟨n, hn, rfl⟩ := List.mem_map.1 hd
    exact ⟨⟨n, hn, by simpa [Directive.cares] using hc⟩, hl⟩
  · rintro ⟨⟨n, hn, hp⟩, hl⟩
    obtain ⟨d, hw⟩ := wins_exists t (crateNames.map fun n => (⟨some n, (env.level level).rank⟩ : Directive))
      ⟨_, List.mem_map.2 ⟨n, hn, rfl⟩, by simpa [Directive.cares] using hp⟩
    obtain ⟨a, b, hab, -⟩ := id hw
    have hd : d ∈ crateNames.map fun n => (⟨some n, (env.level level).rank⟩ : Directive) := by rw [hab]; simp
    obtain ⟨m, -, rfl⟩ := List.mem_map.1 hd
    exact ⟨_, hw, hl⟩

/-- C76: from the most to the least severe. -/
theorem C76_severity (l m : Level) :
    l.rank ≤ m.rank ↔ [Level.error, .warn, .info, .debug, .trace].idxOf l ≤ [Level.error, .warn, .info, .debug, .trace].idxOf m := by
  cases l <;> cases m <;> decide

/-- C76: where the log level comes from. The variable counts if it is one of the five names, else the client's setting,
else it is `info`; likewise for the levels of dependencies. -/
theorem C76_source (env : Env) (client : Option Level) (deps : Option String) :
    (∀ s l, (s, l) ∈ [("error", Level.error), ("warn", .warn), ("info", .info), ("debug", .debug), ("trace", .trace)] →
      env.logLevel = some s → env.level client = l) ∧
    ((∀ s, env.logLevel = some s → s ∉ ["error", "warn", "info", "debug", "trace"]) →
      env.level client = client.getD .info) ∧
    (∀ d, env.dependencyLevels = some d → env.dependencies deps = some d) ∧
    (env.dependencyLevels = none → env.dependencies deps = deps) := by
  refine ⟨fun s l h he => ?_, fun h => ?_, fun d h => by simp [Env.dependencies, h], fun h => by simp [Env.dependencies, h]⟩
  · simp only [List.mem_cons, Prod.mk.injEq, List.not_mem_nil, or_false] at h
    rcases h with ⟨rfl, rfl⟩ | ⟨rfl, rfl⟩ | ⟨rfl, rfl⟩ | ⟨rfl, rfl⟩ | ⟨rfl, rfl⟩ <;>
      simp [Env.level, he, Level.parse]
  · have hn : env.logLevel.bind Level.parse = none := by
      cases hl : env.logLevel with
      | none => rfl
      | some s =>
        have := h s hl
        simp only [List.mem_cons, List.not_mem_nil, or_false, not_or] at this
        simp [Level.parse, this]
    simp only [Env.level, hn]
    cases client <;> rfl

/-- C76: the levels for dependencies do not matter for a message of an air crate, unless one of them is for a part of
that crate. -/
theorem C76_ours_partial (env : Env) (level : Option Level) (deps : Option String) (t : Target) (l : Level) (n : Target)
    (hn : n ∈ crateNames) (hp : n <+: t)
    (hd : ∀ s ds, env.dependencies deps = some s → env.parse s = some ds → ∀ d ∈ ds, d.cares t = true →
      ∀ p, d.target = some p → p.length ≤ n.length) :
    enabled (logFilter env level deps) t l = true ↔ l.rank ≤ (env.level level).rank := by
  rw [C76_decides]
  have hg : ∃ us, given env level deps = us ++ crateNames.map (fun n => ⟨some n, (env.level level).rank⟩) ∧
      ∀ d ∈ us, d.cares t = true → d.size ≤ n.length + 1 := by
    refine ⟨_, rfl, fun d hm hc => ?_⟩
    cases hs : env.dependencies deps with
    | none => rw [hs] at hm; cases hm
    | some s =>
      rw [hs] at hm
      simp only at hm
      cases hps : env.parse s with
      | none => rw [hps] at hm; cases hm
      | some ds =>
        rw [hps] at hm
        simp only [Option.getD_some] at hm
        have := hd s ds hs hps d hm hc
        cases ht : d.target with
        | none => simp [Directive.size, ht]
        | some p => have := this p ht; simp [Directive.size, ht, this]
  obtain ⟨us, hg, hus⟩ := hg
  have hlast : ∀ d, Wins (given env level deps) t d → d.level = (env.level level).rank := by
    rintro d ⟨a, b, hab, hc, h1, h2⟩
    rw [hg] at hab
    rw [List.append_eq_append_iff] at hab
    have hN : ∀ m : List Directive, (∀ e ∈ m, e ∈ crateNames.map fun n => (⟨some n, (env.level level).rank⟩ : Directive)) →
        d ∈ m → d.level = (env.level level).rank := by
      intro m hm hdm
      obtain ⟨m', -, h⟩ := List.mem_map.1 (hm d hdm)
      rw [← h]
    rcases hab with ⟨m, rfl, hm⟩ | ⟨m, rfl, hm⟩
    · exact hN _ (fun e he => he) (by rw [hm]; simp)
    · cases m with
      | nil => simp only [List.nil_append] at hm; exact hN (d :: b) (fun e he => by rw [← hm]; exact he) (by simp)
      | cons y m =>
        simp only [List.cons_append, List.cons.injEq] at hm
        obtain ⟨rfl, rfl⟩ := hm
        have h3 := hus d (by simp) hc
        have h4 := h2 ⟨some n, (env.level level).rank⟩
          (List.mem_append_right _ (List.mem_map.2 ⟨n, hn, rfl⟩)) (by simpa [Directive.cares] using hp)
        simp only [Directive.size] at h4 h3
        omega
  constructor
  · rintro ⟨d, hw, hl⟩
    rw [← hlast d hw]
    exact hl
  · intro hl
    obtain ⟨d, hw⟩ := wins_exists t (given env level deps) ⟨⟨some n, (env.level level).rank⟩,
      by rw [hg]; exact List.mem_append_right _ (List.mem_map.2 ⟨n, hn, rfl⟩), by simpa [Directive.cares] using hp⟩
    exact ⟨d, hw, by rw [hlast d hw]; exact hl⟩

/-- C76: a dependency only logs if the user has given a level for it. -/
theorem C76_dependency (env : Env) (level : Option Level) (deps : Option String) (t : Target) (l : Level) (ht : ¬ Ours t)
    (h : enabled (logFilter env level deps) t l = true) :
    ∃ s ds d, env.dependencies deps = some s ∧ env.parse s = some ds ∧ d ∈ ds ∧ d.cares t = true ∧ l.rank ≤ d.level := by
  rw [C76_decides] at h
  obtain ⟨d, ⟨a, b, hab, hc, -⟩, hl⟩ := h
  have hd : d ∈ given env level deps := by rw [hab]; simp
  unfold given at hd
  rcases List.mem_append.1 hd with hd | hd
  · cases hs : env.dependencies deps with
    | none => rw [hs] at hd; cases hd
    | some s =>
      rw [hs] at hd
      simp only at hd
      cases hp : env.parse s with
      | none => rw [hp] at hd; cases hd
      | some ds => rw [hp] at hd; exact ⟨s, ds, d, rfl, hp, hd, hc, hl⟩
  · obtain ⟨n, hn, rfl⟩ := List.mem_map.1 hd
    exact absurd ⟨n, hn, by simpa [Directive.cares] using hc⟩ ht

/-- C76 fails for dependencies whose names begin with the name of an air crate: they log although the user has not
asked for it. -/
theorem C76_prefix : ∃ (env : Env) (t : Target), env.dependencies none = none ∧ t = "lsp_types::uri".toList ∧
    enabled (logFilter env none none) t .info = true :=
  ⟨⟨none, none, fun _ => none⟩, _, rfl, rfl, by decide⟩

/-- C76 fails for parts of crates: the levels for dependencies also turn off messages of air. -/
theorem C76_part : ∃ (env : Env) (t : Target) (l : Level), t = "lsp::main_loop".toList ∧
    l.rank ≤ (env.level none).rank ∧ enabled (logFilter env none (some "lsp::main_loop=off")) t l = false :=
  ⟨⟨none, none, fun _ => some [⟨some "lsp::main_loop".toList, 0⟩]⟩, _, .error, rfl, by decide, by decide⟩

section

attribute [local irreducible] logFilter

/-- The states that changes of the settings lead to. -/
def reloads (env : Env) (s : State) : List (Option Level × Option String × Bool) → State
  | [] => s
  | c :: cs => reloads env (s.reload env c.1 c.2.1 c.2.2) cs

theorem reloads_filter (env : Env) : ∀ (cs : List (Option Level × Option String × Bool)) (s : State),
    s.filter = logFilter env s.level s.deps →
    (reloads env s cs).filter = logFilter env (reloads env s cs).level (reloads env s cs).deps
  | [], _, h => h
  | c :: cs, s, h => by
    refine reloads_filter env cs _ ?_
    unfold State.reload
    by_cases h1 : s.level = c.1 ∧ s.deps = c.2.1
    · rw [if_pos h1]; exact h
    · rw [if_neg h1]
      cases c.2.2 with
      | true => rfl
      | false => exact h

/-- C76: after any number of changes of the settings, of which some may fail, the filter is the one for the values that
are recorded; and after a change that does not fail, these are its values. -/
theorem C76_reload (env : Env) (level : Option Level) (deps : Option String)
    (cs : List (Option Level × Option String × Bool)) :
    (reloads env (init env level deps) cs).filter =
      logFilter env (reloads env (init env level deps) cs).level (reloads env (init env level deps) cs).deps ∧
    ∀ l d, ((reloads env (init env level deps) cs).reload env l d true).filter = logFilter env l d := by
  have h := reloads_filter env cs (init env level deps) rfl
  generalize reloads env (init env level deps) cs = s at h
  refine ⟨h, fun l d => ?_⟩
  unfold State.reload
  by_cases h1 : s.level = l ∧ s.deps = d
  · rw [if_pos h1, h, h1.1, h1.2]
  · rw [if_neg h1]; rfl

end

/-- C76: the command line logs messages of air's crates up to the level that is asked for, warnings by default, and
nothing else. -/
theorem C76_cli (level : Option Level) (t : Target) (l : Level) :
    enabled (cliFilter level) t l = true ↔ Ours t ∧ l.rank ≤ (level.getD .warn).rank := by
  have h := C76_level ⟨none, none, fun _ => none⟩ (some (level.getD .warn)) none rfl t l
  exact h

/-! ## Example -/

example : Ours "air_r_formatter::comments".toList ∧ ¬ Ours "tower_lsp::transport".toList := by
  unfold Ours
  constructor
  · exact ⟨_, List.mem_of_elem_eq_true (a := "air".toList) (by decide), by decide⟩
  · rintro ⟨n, hn, hp⟩
    rw [← List.isPrefixOf_iff_prefix] at hp
    have : ∀ n ∈ crateNames, n.isPrefixOf "tower_lsp::transport".toList = false := by decide
    rw [this n hn] at hp
    cases hp

/-- `tower_lsp=debug,lsp=off` with the variable `AIR_LOG_LEVEL=debug`. -/
def exEnv : Env := ⟨some "debug", none, fun _ => some [⟨some "tower_lsp".toList, 4⟩, ⟨some "lsp".toList, 0⟩]⟩

example : enabled (logFilter exEnv (some .error) (some "x")) "tower_lsp::transport".toList .debug = true ∧
    enabled (logFilter exEnv (some .error) (some "x")) "tower_lsp::transport".toList .trace = false ∧
    enabled (logFilter exEnv (some .error) (some "x")) "lsp::main_loop".toList .debug = true ∧
    enabled (logFilter exEnv (some .error) (some "x")) "tokio".toList .error = false ∧
    enabled (cliFilter none) "air::commands".toList .warn = true ∧
    enabled (cliFilter none) "air::commands".toList .info = false := by decide

end Verif.Logging
