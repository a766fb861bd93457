import Verif.Spec.Paths

/-!
# C80: paths given by the user
-/

namespace Verif.Paths

/-! ## Components -/

theorem split_name (s : Name) (hs : '/' ∉ s) : ∀ acc, splitSlash acc s = [acc.reverse ++ s] := by
  induction s with
  | nil => intro acc; simp [splitSlash]
  | cons c s ih =>
    intro acc
    rw [splitSlash, if_neg (by rintro rfl; simp at hs), ih (fun h => hs (by simp [h]))]
    simp

theorem split_slash (s : Name) (hs : '/' ∉ s) (p : List Char) : ∀ acc,
    splitSlash acc (s ++ '/' :: p) = (acc.reverse ++ s) :: splitSlash [] p := by
  induction s with
  | nil => intro acc; simp [splitSlash]
  | cons c s ih =>
    intro acc
    rw [List.cons_append, splitSlash, if_neg (by rintro rfl; simp at hs), ih (fun h => hs (by simp [h]))]
    simp

theorem split_join (ss : List Name) (hne : ss ≠ []) (hs : ∀ s ∈ ss, Clean s) : splitSlash [] (join ss) = ss := by
  induction ss with
  | nil => exact absurd rfl hne
  | cons s ss ih =>
    cases ss with
    | nil => rw [join, split_name s (hs s (by simp)).2.2.2]; rfl
    | cons t ss =>
      rw [join, split_slash s (hs s (by simp)).2.2.2, ih (by simp) (fun s h => hs s (by simp [h]))]
      rfl

theorem split_parts (p : List Char) : ∀ acc, '/' ∉ acc → ∀ s ∈ splitSlash acc p, '/' ∉ s := by
  induction p with
  | nil => intro acc ha s hs; simp [splitSlash] at hs; subst hs; simpa using ha
  | cons c p ih =>
    intro acc ha s hs
    rw [splitSlash] at hs
    split at hs
    · rcases List.mem_cons.1 hs with rfl | hs
      · simpa using ha
      · exact ih [] (by simp) s hs
    · rename_i hc
      exact ih (c :: acc) (by simp [ha, Ne.symm hc]) s hs

theorem component_clean {s : Name} (hs : Clean s) : component s = some (.name s) := by
  unfold component
  rw [if_neg (by simp [hs.1, hs.2.1]), if_neg hs.2.2.1]

theorem component_name {s t : Name} (hs : '/' ∉ s) (h : component s = some (.name t)) : Clean t := by
  unfold component at h
  split at h
  · cases h
  · split at h
    · cases h
    · rename_i h1 h2
      cases h
      exact ⟨fun h => h1 (.inl h), fun h => h1 (.inr h), h2, hs⟩

theorem filterMap_clean (ss : List Name) (hs : ∀ s ∈ ss, Clean s) : ss.filterMap component = ss.map .name := by
  induction ss with
  | nil => rfl
  | cons s ss ih =>
    rw [List.filterMap_cons, component_clean (hs s (by simp)), ih (fun s h => hs s (by simp [h]))]
    rfl

theorem foldl_names (ss : List Name) : ∀ a, (ss.map Comp.name).foldl step a = a ++ ss := by
  induction ss with
  | nil => intro a; simp
  | cons s ss ih => intro a; rw [List.map_cons, List.foldl_cons, ih]; simp [step]

theorem component_ne {s : Name} {c : Comp} (h : component s = some c) : c ≠ .root ∧ c ≠ .cur := by
  unfold component at h
  split at h
  · cases h
  · split at h <;> (cases h; exact ⟨nofun, nofun⟩)

/-- All parts of a path, one after the other. -/
theorem normalize_parts (cwd : List Name) (p : List Char) : normalize cwd p =
    ((splitSlash [] p).filterMap component).foldl step (if p.head? = some '/' then [] else cwd) := by
  unfold normalize components
  by_cases h : p.head? = some '/'
  · simp only [if_pos h]
  · simp only [if_neg h]
    cases hp : splitSlash [] p with
    | nil => rfl
    | cons f rest =>
      simp only
      by_cases hf : f = ['.']
      · subst hf
        rfl
      · rw [if_neg hf, List.filterMap_cons]
        cases hc : component f with
        | none =>
          simp only [Option.toList_none, List.nil_append]
          cases hr : rest.filterMap component with
          | nil => rfl
          | cons c cs =>
            have : c ≠ .root ∧ c ≠ .cur := by
              obtain ⟨s, -, hs⟩ := List.mem_filterMap.1 (hr ▸ List.mem_cons_self : c ∈ rest.filterMap component)
              exact component_ne hs
            cases c with
            | root => exact absurd rfl this.1
            | cur => exact absurd rfl this.2
            | up => rfl
            | name s => rfl
        | some c =>
          have := component_ne hc
          cases c with
          | root => exact absurd rfl this.1
          | cur => exact absurd rfl this.2
          | up => rfl
          | name s => rfl

theorem step_clean {a : List Name} (ha : ∀ s ∈ a, Clean s) {c : Comp} (hc : ∀ s, c = .name s → Clean s) :
    ∀ s ∈ step a c, Clean s := by
  cases c with
  | root => exact ha
  | cur => exact ha
  | up => exact fun s hs => ha s (List.dropLast_subset _ hs)
  | name t =>
    intro s hs
    rcases List.mem_append.1 hs with hs | hs
    · exact ha s hs
    · rw [List.mem_singleton] at hs
      subst hs
      exact hc s rfl

theorem foldl_clean (cs : List Comp) : ∀ a : List Name, (∀ s ∈ a, Clean s) → (∀ s, Comp.name s ∈ cs → Clean s) →
    ∀ s ∈ cs.foldl step a, Clean s := by
  induction cs with
  | nil => intro a ha _; exact ha
  | cons c cs ih =>
    intro a ha hc
    exact ih _ (step_clean ha fun s h => hc s (by simp [h])) fun s h => hc s (by simp [h])

/-- C80: whatever the user gives, the path that is used is absolute and has no `.`, `..` or empty parts; and it stays the same
if it is normalised again, in any directory. -/
theorem C80_normal (cwd : List Name) (hc : ∀ s ∈ cwd, Clean s) (p : List Char) :
    (∀ s ∈ normalize cwd p, Clean s) ∧ ∀ cwd', normalize cwd' (render (normalize cwd p)) = normalize cwd p := by
  have h1 : ∀ s ∈ normalize cwd p, Clean s := by
    rw [normalize_parts]
    refine foldl_clean _ _ (by split <;> simp_all) fun s hs => ?_
    obtain ⟨t, ht, he⟩ := List.mem_filterMap.1 hs
    exact component_name (split_parts p [] (by simp) t ht) he
  refine ⟨h1, fun cwd' => ?_⟩
  rw [normalize_parts]
  revert h1
  generalize normalize cwd p = names
  intro h1
  have e : splitSlash [] (render names) = [] :: splitSlash [] (join names) := by simp [render, splitSlash]
  rw [e, if_pos (by rfl), List.filterMap_cons]
  show ((splitSlash [] (join names)).filterMap component).foldl step [] = names
  cases names with
  | nil => rfl
  | cons s ss => rw [split_join _ (by simp) h1, filterMap_clean _ h1, foldl_names]; rfl

theorem join_head {ss : List Name} (hs : ∀ s ∈ ss, Clean s) : ¬(join ss).head? = some '/' := by
  cases ss with
  | nil => simp [join]
  | cons s ss =>
    have hc := hs s (by simp)
    cases s with
    | nil => exact absurd rfl hc.1
    | cons c s =>
      have : c ≠ '/' := by rintro rfl; exact hc.2.2.2 (by simp)
      cases ss <;> simpa [join] using this

/-- C80: the paths that messages show name the files they are about: given to air in the same directory they are the same
paths again. -/
theorem C80_shown (cwd path : List Name) (hp : ∀ s ∈ path, Clean s) :
    normalize cwd (relativize cwd path) = path := by
  unfold relativize
  split
  · rename_i h
    obtain ⟨rest, rfl⟩ := List.isPrefixOf_iff_prefix.1 h
    rw [List.drop_left]
    have hr : ∀ s ∈ rest, Clean s := fun s h => hp s (by simp [h])
    rw [normalize_parts, if_neg (join_head hr)]
    cases rest with
    | nil => simp [join, splitSlash, component]
    | cons s ss => rw [split_join _ (by simp) hr, filterMap_clean _ hr, foldl_names]
  · have := (C80_normal path hp []).2 cwd
    rw [show normalize path [] = path from rfl] at this
    exact this

/-! ## Which file it is -/

theorem Walks.unique {fs : Fs} {n m m' : Nat} {ps : List Name} (h : Walks fs n ps m) : Walks fs n ps m' → m = m' := by
  induction h generalizing m' with
  | nil n => intro h; cases h; rfl
  | stay hs hd _ ih =>
    intro h
    cases h with
    | stay _ _ h => exact ih h
    | up => rcases hs with h | h <;> cases h
    | name hc => exact absurd hs (not_or.2 ⟨hc.1, hc.2.1⟩)
    | link hc => exact absurd hs (not_or.2 ⟨hc.1, hc.2.1⟩)
  | up hd _ ih =>
    intro h
    cases h with
    | stay hs => rcases hs with h | h <;> cases h
    | up _ h => exact ih h
    | name hc => exact absurd rfl hc.2.2.1
    | link hc => exact absurd rfl hc.2.2.1
  | name hc he _ ih =>
    intro h
    cases h with
    | stay hs => exact absurd hs (not_or.2 ⟨hc.1, hc.2.1⟩)
    | up => exact absurd rfl hc.2.2.1
    | name _ he' h => rw [he] at he'; cases he'; exact ih h
    | link _ he' => rw [he] at he'; cases he'
  | link hc he _ _ iht ih =>
    intro h
    cases h with
    | stay hs => exact absurd hs (not_or.2 ⟨hc.1, hc.2.1⟩)
    | up => exact absurd rfl hc.2.2.1
    | name _ he' => rw [he] at he'; cases he'
    | link _ he' ht h =>
      rw [he] at he'
      cases he'
      cases iht ht
      exact ih h

theorem Walks.append {fs : Fs} {n k m : Nat} {a b : List Name} (h : Walks fs n a k) : Walks fs k b m → Walks fs n (a ++ b) m := by
  induction h with
  | nil => exact id
  | stay hs hd _ ih => exact fun h => .stay hs hd (ih h)
  | up hd _ ih => exact fun h => .up hd (ih h)
  | name hs he _ ih => exact fun h => .name hs he (ih h)
  | link hs he ht _ _ ih => exact fun h => .link hs he ht (ih h)

/-- `names` lead from the root to `n`, without links. -/
inductive Leads (fs : Fs) : List Name → Nat → Prop
  | root : Leads fs [] fs.root
  | snoc {names : List Name} {n k : Nat} {s : Name} (h : Leads fs names n) (hs : Clean s)
    (he : fs.entry n s = some (.node k)) : Leads fs (names ++ [s]) k

theorem Leads.walks {fs : Fs} {names : List Name} {n : Nat} (h : Leads fs names n) : Walks fs fs.root names n := by
  induction h with
  | root => exact .nil _
  | snoc _ hs he ih => exact ih.append (.name hs he (.nil _))

theorem straight_leads {fs : Fs} (ok : fs.Ok) {n k : Nat} {ps : List Name} (h : Straight fs n ps k) :
    ∀ names, Leads fs names n → Leads fs ((ps.filterMap component).foldl step names) k := by
  induction h with
  | nil => exact fun _ h => h
  | stay hs _ _ ih =>
    intro names h
    rw [List.filterMap_cons, show component _ = none by unfold component; rw [if_pos hs]]
    exact ih names h
  | up hd _ ih =>
    intro names h
    rw [List.filterMap_cons]
    show Leads fs ((List.filterMap component _).foldl step names.dropLast) _
    refine ih _ ?_
    cases h with
    | root => rw [ok.root_parent]; exact .root
    | snoc h hs he => rw [List.dropLast_concat, ok.parents _ _ _ he hd]; exact h
  | name hs he _ ih =>
    intro names h
    rw [List.filterMap_cons, component_clean hs]
    exact ih _ (.snoc h hs he)

theorem downward {fs : Fs} {n m : Nat} {ps : List Name} (h : Walks fs n ps m) : ['.', '.'] ∉ ps →
    ∃ rest, (∀ s ∈ rest, Clean s) ∧ ps.filterMap component = rest.map .name ∧ Walks fs n rest m := by
  induction h with
  | nil n => exact fun _ => ⟨[], by simp, rfl, .nil n⟩
  | stay hs _ _ ih =>
    intro hn
    obtain ⟨rest, h1, h2, h3⟩ := ih (fun h => hn (by simp [h]))
    refine ⟨rest, h1, ?_, h3⟩
    rw [List.filterMap_cons, show component _ = none by unfold component; rw [if_pos hs]]
    exact h2
  | up => intro hn; simp at hn
  | name hs he _ ih =>
    intro hn
    obtain ⟨rest, h1, h2, h3⟩ := ih (fun h => hn (by simp [h]))
    refine ⟨_ :: rest, by simpa using ⟨hs, h1⟩, ?_, .name hs he h3⟩
    rw [List.filterMap_cons, component_clean hs]
    simp [h2]
  | link hs he ht _ _ ih =>
    intro hn
    obtain ⟨rest, h1, h2, h3⟩ := ih (fun h => hn (by simp [h]))
    refine ⟨_ :: rest, by simpa using ⟨hs, h1⟩, ?_, .link hs he ht h3⟩
    rw [List.filterMap_cons, component_clean hs]
    simp [h2]

theorem opens_render {fs : Fs} (ok : fs.Ok) {n m : Nat} {names : List Name} (hc : ∀ s ∈ names, Clean s)
    (h : Walks fs fs.root names m) : Opens fs n (render names) m := by
  have e : splitSlash [] (render names) = [] :: splitSlash [] (join names) := by simp [render, splitSlash]
  unfold Opens
  rw [e, start, if_pos (by rfl)]
  refine .stay (.inl rfl) ok.root_dir ?_
  cases names with
  | nil => cases h; exact .stay (.inl rfl) ok.root_dir (.nil _)
  | cons s ss => rwa [split_join _ (by simp) hc]

/-- C80: the file that air works on is the file that the path names, in any directory, if no `..` comes after a symbolic
link. -/
theorem C80_same_partial {fs : Fs} (ok : fs.Ok) {cwd : List Name} {c : Nat} (hc : Leads fs cwd c) (p : List Char)
    {a b : List Name} {k m : Nat} (hp : splitSlash [] p = a ++ b) (ha : Straight fs (start fs c p) a k)
    (hb : Walks fs k b m) (hn : ['.', '.'] ∉ b) :
    ∀ m' n, Opens fs n (render (normalize cwd p)) m' ↔ Opens fs c p m' := by
  have hsw : ∀ {n k ps}, Straight fs n ps k → Walks fs n ps k := by
    intro n k ps h
    induction h with
    | nil n => exact .nil n
    | stay hs hd _ ih => exact .stay hs hd ih
    | up hd _ ih => exact .up hd ih
    | name hs he _ ih => exact .name hs he ih
  have hopen : Opens fs c p m := by
    unfold Opens
    rw [hp]
    exact (hsw ha).append hb
  have hstart : Leads fs (if p.head? = some '/' then [] else cwd) (start fs c p) := by
    unfold start
    split
    · exact .root
    · exact hc
  have hclean : ∀ {names n}, Leads fs names n → ∀ s ∈ names, Clean s := by
    intro names n h
    induction h with
    | root => simp
    | snoc _ hs _ ih =>
      intro s h
      rcases List.mem_append.1 h with h | h
      · exact ih s h
      · rw [List.mem_singleton] at h; subst h; exact hs
  have hl := straight_leads ok ha _ hstart
  obtain ⟨rest, h1, h2, h3⟩ := downward hb hn
  have e : normalize cwd p = (a.filterMap component).foldl step (if p.head? = some '/' then [] else cwd) ++ rest := by
    rw [normalize_parts, hp, List.filterMap_append, List.foldl_append, h2, foldl_names]
  have hnew : ∀ n, Opens fs n (render (normalize cwd p)) m := by
    intro n
    refine opens_render ok ((C80_normal cwd (hclean hc) p).1) ?_
    rw [e]
    exact hl.walks.append h3
  intro m' n
  exact ⟨fun h => (Walks.unique (hnew n) h) ▸ hopen, fun h => (Walks.unique hopen h) ▸ hnew n⟩

/-! ## Where it goes wrong -/

/-- `/d` with `/d/e` and the file `/d/x`, the file `/x`, and the link `/l` to `d/e`. -/
def linked : Fs where
  root := 0
  isDir n := n == 0 || n == 1 || n == 2
  parent n := if n = 2 then 1 else 0
  entry n s :=
    if n = 0 ∧ s = ['d'] then some (.node 1)
    else if n = 1 ∧ s = ['e'] then some (.node 2)
    else if n = 1 ∧ s = ['x'] then some (.node 3)
    else if n = 0 ∧ s = ['x'] then some (.node 4)
    else if n = 0 ∧ s = ['l'] then some (.link ['d', '/', 'e'])
    else none

theorem linked_ok : linked.Ok where
  root_dir := rfl
  root_parent := rfl
  parents := by
    intro n s k h hd
    simp only [linked] at h hd ⊢
    repeat' split at h
    all_goals cases h
    all_goals first
      | (revert hd; decide)
      | simp_all
  dirs := by
    intro n s e h
    simp only [linked] at h ⊢
    repeat' split at h
    all_goals first
      | cases h; done
      | simp_all

/-- C80 fails behind symbolic links: `l/../x` is `/d/x`, but air formats `/x`. -/
theorem C80_link : Opens linked 0 ['l', '/', '.', '.', '/', 'x'] 3 ∧
    Opens linked 0 (render (normalize [] ['l', '/', '.', '.', '/', 'x'])) 4 := by
  constructor
  · refine .link (by simp [Clean]) (show linked.entry 0 ['l'] = some (.link ['d', '/', 'e']) by decide) (k := 2) ?_ ?_
    · exact .name (by simp [Clean]) (show linked.entry 0 ['d'] = some (.node 1) by decide)
        (.name (by simp [Clean]) (show linked.entry 1 ['e'] = some (.node 2) by decide) (.nil _))
    · exact .up (by decide) (.name (by simp [Clean]) (show linked.entry 1 ['x'] = some (.node 3) by decide) (.nil _))
  · exact .stay (.inl rfl) (by decide)
      (.name (by simp [Clean]) (show linked.entry 0 ['x'] = some (.node 4) by decide) (.nil _))

/-- C80 fails for paths through missing directories and through files: `g/../x` and `x/` are errors for the operating system,
but air formats `/x`. -/
theorem C80_missing : (∀ m, ¬Opens linked 0 ['g', '/', '.', '.', '/', 'x'] m) ∧ (∀ m, ¬Opens linked 0 ['x', '/'] m) ∧
    Opens linked 0 (render (normalize [] ['g', '/', '.', '.', '/', 'x'])) 4 ∧
    Opens linked 0 (render (normalize [] ['x', '/'])) 4 := by
  have h4 : Opens linked 0 (render [['x']]) 4 := .stay (.inl rfl) (by decide)
      (.name (by simp [Clean]) (show linked.entry 0 ['x'] = some (.node 4) by decide) (.nil _))
  refine ⟨fun m h => ?_, fun m h => ?_, h4, h4⟩
  · change Walks linked 0 [['g'], ['.', '.'], ['x']] m at h
    cases h with
    | stay hs => rcases hs with h | h <;> cases h
    | name _ he => revert he; simp [linked]
    | link _ he => revert he; simp [linked]
  · change Walks linked 0 [['x'], []] m at h
    cases h with
    | stay hs => rcases hs with h | h <;> cases h
    | name _ he h =>
      have : linked.entry 0 ['x'] = some (.node 4) := by decide
      rw [this] at he
      cases he
      cases h with
      | stay _ hd => revert hd; decide
      | name hc => exact absurd rfl hc.1
      | link hc => exact absurd rfl hc.1
    | link _ he => revert he; simp [linked]

/-- From `/d/e`: `../../l` is a link behind two `..`. -/
example : Leads linked [['d'], ['e']] 2 ∧ splitSlash [] ['.', '.', '/', '.', '.', '/', 'l'] = [['.', '.'], ['.', '.']] ++ [['l']] ∧
    Straight linked 2 [['.', '.'], ['.', '.']] 0 ∧ Walks linked 0 [['l']] 2 ∧ ['.', '.'] ∉ [['l']] := by
  refine ⟨.snoc (names := [['d']]) (.snoc (names := []) .root (by simp [Clean]) (show linked.entry 0 ['d'] = some (.node 1) by decide))
      (by simp [Clean]) (show linked.entry 1 ['e'] = some (.node 2) by decide), by decide, .up (by decide) (.up (by decide) (.nil _)),
    .link (by simp [Clean]) (show linked.entry 0 ['l'] = some (.link ['d', '/', 'e']) by decide) (k := 2) ?_ (.nil _), by decide⟩
  exact .name (by simp [Clean]) (show linked.entry 0 ['d'] = some (.node 1) by decide)
    (.name (by simp [Clean]) (show linked.entry 1 ['e'] = some (.node 2) by decide) (.nil _))

/-- In `/d`, the file `/d/x` is shown as `x`. -/
example : relativize [['d']] [['d'], ['x']] = ['x'] ∧ relativize [['d']] [['x']] = ['/', 'x'] := by decide

end Verif.Paths
