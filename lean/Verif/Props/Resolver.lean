import Verif.Lemmas.Resolver

/-!
# C15: the path resolver is a finite map with longest-prefix lookup

Specification: a function from directories to values (`Path → Option T`), updated by the history of
operations.
-/

namespace Verif.Resolver
variable {T : Type}

/-- The mutating operations. `update path f` is a walk over `matches_mut(path)` replacing the value of
every enclosing directory. -/
inductive Op (T : Type)
  | add (path : Path) (value : T)
  | remove (path : Path)
  | clear
  | update (path : Path) (f : Path → T → T)

/-- The implementation, with the value returned by the operation. -/
def step (r : Resolver T) : Op T → Resolver T × Option T
  | .add p v => add r p v
  | .remove p => remove r p
  | .clear => (clear r, none)
  | .update p f => (matchesMut r p fun item => f item.path item.value, none)

/-- The specification on functions. -/
def specStep (m : Path → Option T) : Op T → (Path → Option T) × Option T
  | .add p v => (fun d => if d = p then some v else m d, m p)
  | .remove p => (fun d => if d = p then none else m d, m p)
  | .clear => (fun _ => none, none)
  | .update p f => (fun d => if d <+: p then (m d).map (f d) else m d, none)

def run (r : Resolver T) : List (Op T) → Resolver T × List (Option T)
  | [] => (r, [])
  | o :: os =>
    let (r', out) := step r o
    let (r'', outs) := run r' os
    (r'', out :: outs)

def specRun (m : Path → Option T) : List (Op T) → (Path → Option T) × List (Option T)
  | [] => (m, [])
  | o :: os =>
    let (m', out) := specStep m o
    let (m'', outs) := specRun m' os
    (m'', out :: outs)

/-- The resolver represents the map. -/
def Rep (r : Resolver T) (m : Path → Option T) : Prop :=
  Sorted r.items ∧ ∀ d v, (⟨d, v⟩ : Item T) ∈ r.items ↔ m d = some v

theorem step_rep (r : Resolver T) (m : Path → Option T) (h : Rep r m) (o : Op T) :
    Rep (step r o).1 (specStep m o).1 ∧ (step r o).2 = (specStep m o).2 ∧
      (step r o).1.fallback = r.fallback := by
  obtain ⟨hs, hm⟩ := h
  have optEq : ∀ a b : Option T, (∀ v, a = some v ↔ b = some v) → a = b := by
    intro a b h
    cases a with
    | some x => exact ((h x).mp rfl).symm
    | none =>
      cases b with
      | none => rfl
      | some y => exact (h y).mpr rfl
  cases o with
  | add p v =>
    obtain ⟨h1, h2, h3, h4⟩ := add_spec r hs p v
    refine ⟨⟨h1, ?_⟩, ?_, h2⟩
    · intro d w
      simp only [step, specStep]
      rw [h3]
      by_cases hd : d = p
      · simp [hd]; exact eq_comm
      · simp [hd, hm]
    · exact optEq _ _ fun w => by simp only [step, specStep]; rw [h4, hm]
  | remove p =>
    obtain ⟨h1, h2, h3, h4⟩ := remove_spec r hs p
    refine ⟨⟨h1, ?_⟩, ?_, h2⟩
    · intro d w
      simp only [step, specStep]
      rw [h3]
      by_cases hd : d = p
      · simp [hd]
      · simp [hd, hm]
    · exact optEq _ _ fun w => by simp only [step, specStep]; rw [h4, hm]
  | clear => exact ⟨⟨by simp [step, clear, Sorted], by simp [step, clear, specStep]⟩, rfl, rfl⟩
  | update p f =>
    refine ⟨⟨?_, ?_⟩, rfl, rfl⟩
    · simp only [step, matchesMut, Sorted]
      rw [List.pairwise_map]
      refine hs.imp ?_
      intro a b hab
      split <;> split <;> exact hab
    · intro d w
      simp only [step, matchesMut, specStep, List.mem_map]
      have hp : ∀ x : Item T, startsWith p x.path = true ↔ x.path <+: p := fun x =>
        List.isPrefixOf_iff_prefix
      constructor
      · rintro ⟨x, hx, he⟩
        cases x with
        | mk d' v' =>
        have hx := (hm d' v').mp hx
        split at he
        · rename_i hpre
          have hpre := (hp _).mp hpre
          simp at he
          obtain ⟨rfl, rfl⟩ := he
          simp at hpre
          simp [hpre, hx]
        · rename_i hpre
          have hpre := fun h => hpre ((hp _).mpr h)
          simp at he
          obtain ⟨rfl, rfl⟩ := he
          simp at hpre
          simp [hpre, hx]
      · intro h
        by_cases hpre : d <+: p
        · simp only [hpre, if_true, Option.map_eq_some_iff] at h
          obtain ⟨v, h1, h2⟩ := h
          refine ⟨⟨d, v⟩, (hm d v).mpr h1, ?_⟩
          rw [if_pos ((hp ⟨d, v⟩).mpr hpre), ← h2]
        · simp only [hpre, if_false] at h
          refine ⟨⟨d, w⟩, (hm d w).mpr h, ?_⟩
          rw [if_neg (fun h => hpre ((hp ⟨d, w⟩).mp h))]

theorem run_rep (ops : List (Op T)) (r : Resolver T) (m : Path → Option T) (h : Rep r m) :
    Rep (run r ops).1 (specRun m ops).1 ∧ (run r ops).2 = (specRun m ops).2 ∧
      (run r ops).1.fallback = r.fallback := by
  induction ops generalizing r m with
  | nil => exact ⟨h, rfl, rfl⟩
  | cons o ops ih =>
    obtain ⟨h1, h2, h3⟩ := step_rep r m h o
    obtain ⟨h4, h5, h6⟩ := ih _ _ h1
    exact ⟨h4, by simp only [run, specRun]; rw [h2, h5], by rw [← h3]; exact h6⟩

theorem new_rep (fallback : T) : Rep (new fallback) fun _ => none :=
  ⟨by simp [new, Sorted], by simp [new]⟩

/-- C15: after any history, resolving a path gives the entry of the longest directory that is a
component-wise prefix of the path. -/
theorem C15_resolve_closest (fallback : T) (ops : List (Op T)) (path d : Path) (v : T) :
    let r := (run (new fallback) ops).1
    let m := (specRun (fun _ => none) ops).1
    resolve r path = some ⟨d, v⟩ ↔
      m d = some v ∧ d <+: path ∧ ∀ d', d' <+: path → m d' ≠ none → d'.length ≤ d.length := by
  intro r m
  obtain ⟨⟨h1, h2⟩, _, _⟩ := run_rep ops (new fallback) _ (new_rep fallback)
  rw [resolve_eq_some_iff r h1]
  constructor
  · rintro ⟨h3, h4, h5⟩
    refine ⟨(h2 d v).mp h3, h4, fun d' hp hne => ?_⟩
    cases hv : m d' with
    | none => exact absurd hv hne
    | some v' => exact h5 d' v' ((h2 d' v').mpr hv) hp
  · rintro ⟨h3, h4, h5⟩
    exact ⟨(h2 d v).mpr h3, h4, fun d' v' hm hp => h5 d' hp fun e => by
      have := (h2 d' v').mp hm; rw [show (specRun (fun _ => none) ops).1 d' = none from e] at this; cases this⟩

/-- C15: with the fallback if no directory encloses the path; the fallback never changes. -/
theorem C15_fallback (fallback : T) (ops : List (Op T)) (path : Path)
    (h : ∀ d, d <+: path → (specRun (fun _ => none) ops).1 d = none) :
    resolveOrFallback (run (new fallback) ops).1 path = fallback := by
  obtain ⟨⟨_, h2⟩, _, h3⟩ := run_rep ops (new fallback) _ (new_rep fallback)
  have : resolve (run (new fallback) ops).1 path = none := by
    rw [resolve_eq_none_iff]
    intro d v hm hp
    have := (h2 d v).mp hm
    rw [h d hp] at this
    cases this
  simp only [resolveOrFallback, this]
  exact h3

/-- C15: the values returned by the operations are those of the map (`add`: the replaced value,
`remove`: the removed value). -/
theorem C15_returned_values (fallback : T) (ops : List (Op T)) :
    (run (new fallback) ops).2 = (specRun (fun _ => none) ops).2 :=
  (run_rep ops (new fallback) _ (new_rep fallback)).2.1

/-- C15: all enclosing directories are listed, each once, outermost first. -/
theorem C15_matches (fallback : T) (ops : List (Op T)) (path : Path) :
    (∀ d v, (⟨d, v⟩ : Item T) ∈ «matches» (run (new fallback) ops).1 path ↔
      (specRun (fun _ => none) ops).1 d = some v ∧ d <+: path) ∧
    («matches» (run (new fallback) ops).1 path).Pairwise
      fun a b => a.path.length < b.path.length := by
  obtain ⟨⟨h1, h2⟩, _, _⟩ := run_rep ops (new fallback) _ (new_rep fallback)
  have hp : ∀ x : Item T, startsWith path x.path = true ↔ x.path <+: path := fun x =>
    List.isPrefixOf_iff_prefix
  refine ⟨?_, ?_⟩
  · intro d v
    simp only [«matches», List.mem_filter, h2]
    rw [hp ⟨d, v⟩]
  · simp only [«matches»]
    have := (h1.filter (fun item => startsWith path item.path))
    refine List.Pairwise.imp_of_mem ?_ this
    intro a b ha hb hab
    simp only [List.mem_filter, hp] at ha hb
    apply Classical.byContradiction
    intro hlen
    have hba := List.prefix_of_prefix_length_le hb.2 ha.2 (by omega)
    by_cases he : b.path = a.path
    · exact lt_ne hab he.symm
    · have := lt_trans hab (compare_prefix_lt _ _ hba he)
      rw [cmp_self] at this; cases this

/-- A history with a replacement, a removal and nested directories. -/
def exOps : List (Op Nat) :=
  [.add ["/", "u", "b"] 1, .add ["/", "u", "b", "a"] 2, .add ["/", "u"] 3, .add ["/", "u", "b"] 4,
   .remove ["/", "u"]]

example : resolve (run (new 0) exOps).1 ["/", "u", "b", "c.R"] = some ⟨["/", "u", "b"], 4⟩ ∧
    resolveOrFallback (run (new 0) exOps).1 ["/", "u", "b.R"] = 0 ∧
    (run (new 0) exOps).2 = [none, none, none, some 1, some 3] := by
  decide +kernel

end Verif.Resolver
