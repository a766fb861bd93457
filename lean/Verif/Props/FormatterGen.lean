import Verif.Model.FormatterGen
import Verif.Props.RGrammar

/-!
# The generator of the formatter's modules

C88: what a run of the generator does to files that are not committed, and to implementations that exist. C89: what there is
afterwards, and that a second run changes nothing.
-/

namespace Verif.FormatterGen

open Verif.Ungrammar (Name Def rAst)

/-! ## Steps -/

/-- What `insert` adds for a module. -/
def mods (root : RPath) (m : Name × Name) : List (RPath × Name) :=
  [(m.1 :: "r".toList :: root, m.2), ("r".toList :: root, m.1)]

theorem walk_eq (root : RPath) (m : Name × Name) : walk root m.2 (m.1 :: "r".toList :: root) = mods root m := by
  have h : ("r".toList :: root) ≠ root := fun h => by simpa using congrArg List.length h
  simp [walk, mods, h]

theorem insert_error {repo : Repo} {root : RPath} {st st' : St} {m : Name × Name} (h : insert repo root st m = .error st') :
    st'.disk = st.disk := by
  unfold insert at h
  rw [walk_eq] at h
  simp only [mods, insertGo] at h
  grind

theorem insert_ok {repo : Repo} {root : RPath} {st st' : St} {m : Name × Name} (h : insert repo root st m = .ok st') :
    st' = { st with unused := st.unused.filter (· ≠ modulePath root m), modules := st.modules ++ mods root m } ∧
    repo.check (modRs (m.1 :: "r".toList :: root)) = true ∧ repo.check (modRs ("r".toList :: root)) = true := by
  unfold insert at h
  rw [walk_eq] at h
  simp only [mods, insertGo] at h
  split at h
  · split at h
    · cases h
      refine ⟨by simp [mods], ?_, ?_⟩ <;> assumption
    · cases h
  · cases h

/-- The paths of nodes. -/
def IsPath (root : RPath) (names : List (NodeKind × Name)) (p : RPath) : Prop :=
  ∃ kn ∈ names, ∃ m, nameToModule kn.1 kn.2 = some m ∧ modulePath root m = p

theorem nodes_kept {repo : Repo} {root : RPath} {texts : Texts} {p : RPath} : ∀ (names : List (NodeKind × Name)) (st : St),
    (∀ kn ∈ names, ∀ m, nameToModule kn.1 kn.2 = some m → modulePath root m = p →
      (kn.1.isUnion = false ∧ (st.disk p).isSome) ∨ repo.check p = false) →
    after (genNodes repo root texts st names) p = st.disk p
  | [], st, _ => rfl
  | kn :: rest, st, h => by
    have key : ∀ st', genNode repo root texts st kn = .ok st' ∨ genNode repo root texts st kn = .error st' → st'.disk p = st.disk p := by
      intro st' hst
      unfold genNode at hst
      cases hm : nameToModule kn.1 kn.2 with
      | none => simp [hm] at hst; rw [hst]
      | some m =>
        have hh := h kn (by simp) m hm
        simp only [hm] at hst
        cases hi : insert repo root st m with
        | error s => simp [hi] at hst; rw [← hst, insert_error hi]
        | ok s =>
          have hs : s.disk = st.disk := by rw [(insert_ok hi).1]
          simp only [hi] at hst
          rw [hs] at hst
          split at hst
          · simp at hst; rw [← hst, hs]
          · split at hst
            · rename_i h1 h2
              simp at hst
              rw [← hst]
              simp only [write]
              split
              · rename_i he
                subst he
                rcases hh rfl with ⟨hu, hd⟩ | hc
                · simp [hu, hd] at h1
                · rw [hc] at h2; cases h2
              · rfl
            · simp at hst; rw [← hst, hs]
    unfold genNodes
    cases hg : genNode repo root texts st kn with
    | error s => exact key s (.inr hg)
    | ok s =>
      have hk := key s (.inl hg)
      simp only
      rw [nodes_kept rest s, hk]
      intro kn' hk' m hm hp
      rw [hk]
      exact h kn' (by simp [hk']) m hm hp

theorem node_ok {repo : Repo} {root : RPath} {texts : Texts} {st st' : St} {kn : NodeKind × Name}
    (h : genNode repo root texts st kn = .ok st') : ∃ m, nameToModule kn.1 kn.2 = some m ∧
      st'.modules = st.modules ++ mods root m ∧ st'.unused = st.unused.filter (· ≠ modulePath root m) ∧
      repo.check (modRs (m.1 :: "r".toList :: root)) = true ∧ repo.check (modRs ("r".toList :: root)) = true ∧
      (st'.disk (modulePath root m)).isSome ∧ (∀ p, p ≠ modulePath root m → st'.disk p = st.disk p) ∧
      (kn.1.isUnion = true → st'.disk (modulePath root m) = some (texts.node kn.1 kn.2)) := by
  unfold genNode at h
  cases hm : nameToModule kn.1 kn.2 with
  | none => simp [hm] at h
  | some m =>
    simp only [hm] at h
    cases hi : insert repo root st m with
    | error s => simp [hi] at h
    | ok s =>
      simp only [hi] at h
      obtain ⟨hs, h1, h2⟩ := insert_ok hi
      refine ⟨m, rfl, ?_⟩
      split at h
      · rename_i hc
        cases h
        simp only [Bool.and_eq_true, Bool.not_eq_true'] at hc
        refine ⟨by rw [hs], by rw [hs], h1, h2, hc.2, fun p _ => by rw [hs], fun hu => ?_⟩
        rw [hu] at hc; exact absurd hc.1 (by simp)
      · split at h
        · cases h
          refine ⟨by rw [hs], by rw [hs], h1, h2, by simp [write], fun p hp => ?_, fun _ => by simp [write]⟩
          simp only [write, if_neg hp, hs]
        · cases h

theorem nodes_ok {repo : Repo} {root : RPath} {texts : Texts} : ∀ {names : List (NodeKind × Name)} {st st' : St},
    genNodes repo root texts st names = .ok st' →
    (∀ p, p ∈ st'.unused ↔ p ∈ st.unused ∧ ¬ IsPath root names p) ∧
    (∀ kn ∈ names, ∃ m, nameToModule kn.1 kn.2 = some m ∧
      repo.check (modRs (m.1 :: "r".toList :: root)) = true ∧ repo.check (modRs ("r".toList :: root)) = true) ∧
    (∀ p, (st'.disk p).isSome ↔ (st.disk p).isSome ∨ IsPath root names p)
  | [], st, st', h => by
    cases h
    simp [IsPath]
  | kn :: rest, st, st', h => by
    unfold genNodes at h
    cases hg : genNode repo root texts st kn with
    | error s => simp [hg] at h
    | ok s =>
      simp only [hg] at h
      obtain ⟨m, hm, h1, h2, h3, h4, h5, h6, _⟩ := node_ok hg
      obtain ⟨i2, i3, i4⟩ := nodes_ok h
      refine ⟨fun p => ?_, fun kn' hk => ?_, fun p => ?_⟩
      · rw [i2, h2]
        simp only [IsPath, List.mem_filter, List.mem_cons, exists_eq_or_imp, hm, Option.some.injEq, exists_eq_left', decide_eq_true_eq]
        grind
      · rcases List.mem_cons.1 hk with rfl | hk
        · exact ⟨m, hm, h3, h4⟩
        · exact i3 kn' hk
      · rw [i4]
        simp only [IsPath, List.mem_cons, exists_eq_or_imp, hm, Option.some.injEq, exists_eq_left']
        by_cases hp : p = modulePath root m
        · subst hp; simp [h5]
        · rw [h6 p hp]
          have : ¬ modulePath root m = p := fun h => hp h.symm
          simp [this]

/-- The modules of a run, as a list that depends on the names only. -/
def allMods (root : RPath) (names : List (NodeKind × Name)) : List (RPath × Name) :=
  names.flatMap fun kn => match nameToModule kn.1 kn.2 with | some m => mods root m | none => []

theorem nodes_modules {repo : Repo} {root : RPath} {texts : Texts} : ∀ {names : List (NodeKind × Name)} {st st' : St},
    genNodes repo root texts st names = .ok st' → st'.modules = st.modules ++ allMods root names
  | [], st, st', h => by cases h; simp [allMods]
  | kn :: rest, st, st', h => by
    unfold genNodes at h
    cases hg : genNode repo root texts st kn with
    | error s => simp [hg] at h
    | ok s =>
      simp only [hg] at h
      obtain ⟨m, hm, h1, _⟩ := node_ok hg
      rw [nodes_modules h, h1]
      simp [allMods, hm]

theorem printMods_disk {texts : Texts} {ms : List (RPath × Name)} : ∀ (dirs : List RPath) (st : St),
    (∀ d ∈ dirs, (printMods texts ms st dirs).disk (modRs d) = some (modText texts ms d)) ∧
    (∀ p, (∀ d ∈ dirs, p ≠ modRs d) → (printMods texts ms st dirs).disk p = st.disk p) ∧
    (∀ p, p ∈ (printMods texts ms st dirs).unused ↔ p ∈ st.unused ∧ ∀ d ∈ dirs, p ≠ modRs d)
  | [], st => by simp [printMods]
  | d :: rest, st => by
    have ih := printMods_disk (texts := texts) (ms := ms) rest
      { st with
        disk := write st.disk (modRs d) (modText texts ms d)
        unused := st.unused.filter (· ≠ modRs d)
        stage := st.stage ++ [modRs d] }
    simp only [printMods]
    refine ⟨fun e he => ?_, fun p hp => ?_, fun p => ?_⟩
    · by_cases hr : e ∈ rest
      · exact ih.1 e hr
      · have he' : e = d := by simpa [hr] using he
        subst he'
        rw [ih.2.1]
        · simp [write]
        · intro d' hd' h
          simp [modRs] at h
          exact hr (h ▸ hd')
    · rw [ih.2.1 p fun d' hd' => hp d' (by simp [hd'])]
      simp [write, hp d (by simp)]
    · rw [ih.2.2]
      simp [and_assoc]

/-- The directories with a `mod.rs`. -/
def IsDir (root : RPath) (names : List (NodeKind × Name)) (d : RPath) : Prop :=
  ∃ kn ∈ names, ∃ m, nameToModule kn.1 kn.2 = some m ∧ (d = m.1 :: "r".toList :: root ∨ d = "r".toList :: root)

theorem mem_dirs {root : RPath} {names : List (NodeKind × Name)} {d : RPath} :
    d ∈ ((allMods root names).map Prod.fst).eraseDups ↔ IsDir root names d := by
  simp only [List.mem_eraseDups, List.mem_map, allMods, List.mem_flatMap, IsDir]
  constructor
  · rintro ⟨x, ⟨kn, hk, hx⟩, rfl⟩
    cases hm : nameToModule kn.1 kn.2 with
    | none => simp [hm] at hx
    | some m =>
      simp [hm, mods] at hx
      refine ⟨kn, hk, m, hm, ?_⟩
      rcases hx with rfl | rfl <;> simp
  · rintro ⟨kn, hk, m, hm, rfl | rfl⟩
    · exact ⟨(_, m.2), ⟨kn, hk, by simp [hm, mods]⟩, rfl⟩
    · exact ⟨(_, m.1), ⟨kn, hk, by simp [hm, mods]⟩, rfl⟩

/-- The files at the end of a run that finishes. -/
theorem generate_ok {repo : Repo} {root : RPath} {texts : Texts} {files : List RPath} {disk : RPath → Option Name}
    {names : List (NodeKind × Name)} {st : St} (h : generate repo root texts files disk names = .ok st) :
    ∃ s, genNodes repo root texts ⟨disk, [], files, []⟩ names = .ok s ∧
      st.disk (generatedRs root) = some (texts.generated names) ∧
      (∀ d, IsDir root names d → modRs d ≠ generatedRs root → st.disk (modRs d) = some (modText texts (allMods root names) d)) ∧
      (∀ p, p ≠ generatedRs root → (∀ d, IsDir root names d → p ≠ modRs d) →
        (p ∈ files ∧ ¬ IsPath root names p → st.disk p = none) ∧ (¬ (p ∈ files ∧ ¬ IsPath root names p) → st.disk p = s.disk p)) := by
  unfold generate at h
  cases hg : genNodes repo root texts ⟨disk, [], files, []⟩ names with
  | error s => simp [hg] at h
  | ok s =>
    simp only [hg, Except.ok.injEq] at h
    refine ⟨s, rfl, ?_⟩
    have hmod := nodes_modules hg
    simp only [List.nil_append] at hmod
    obtain ⟨hun, -, -⟩ := nodes_ok hg
    obtain ⟨p1, p2, p3⟩ := printMods_disk (texts := texts) (ms := allMods root names) ((allMods root names).map Prod.fst).eraseDups s
    subst h
    simp only [printIndex, hmod]
    refine ⟨by simp [write], fun d hd hne => ?_, fun p hg' hp => ?_⟩
    · simp only [write, if_neg hne]
      rw [if_neg, p1 d (mem_dirs.2 hd)]
      rw [p3]
      exact fun h => h.2 d (mem_dirs.2 hd) rfl
    · simp only [write, if_neg hg']
      rw [p2 p fun d hd => hp d (mem_dirs.1 hd)]
      have : (p ∈ (printMods texts (allMods root names) s ((allMods root names).map Prod.fst).eraseDups).unused) ↔
          (p ∈ files ∧ ¬ IsPath root names p) := by
        rw [p3, hun]
        exact ⟨fun h => h.1, fun h => ⟨h, fun d hd => hp d (mem_dirs.1 hd)⟩⟩
      exact ⟨fun h => if_pos (this.2 h), fun h => if_neg fun h' => h (this.1 h')⟩

theorem generate_error {repo : Repo} {root : RPath} {texts : Texts} {files : List RPath} {disk : RPath → Option Name}
    {names : List (NodeKind × Name)} {st : St} (h : generate repo root texts files disk names = .error st) :
    genNodes repo root texts ⟨disk, [], files, []⟩ names = .error st := by
  unfold generate at h
  cases hg : genNodes repo root texts ⟨disk, [], files, []⟩ names with
  | error s => simp [hg] at h; rw [h]
  | ok s => simp [hg] at h

/-! ## C88 -/

/-- A file with uncommitted changes. -/
def Uncommitted (root : RPath) (statuses : List Entry) (p : RPath) : Prop :=
  ∃ e ∈ statuses, ∃ q, e.path = some q ∧ q ++ root = p ∧ e.flags ≠ []

theorem uncommitted_check {args : List Name} {root p : RPath} {statuses : List Entry} (hs : "--allow-staged".toList ∉ args)
    (hd : "--allow-dirty".toList ∉ args) (h : Uncommitted root statuses p) : (Repo.open args root statuses).check p = false := by
  obtain ⟨e, he, q, hq, rfl, hf⟩ := h
  have hs' : args.contains "--allow-staged".toList = false := by rw [List.contains_eq_mem]; exact decide_eq_false hs
  have hd' : args.contains "--allow-dirty".toList = false := by rw [List.contains_eq_mem]; exact decide_eq_false hd
  unfold Repo.open Repo.check
  simp only [hs', hd', Bool.and_eq_false_iff, Bool.not_eq_eq_eq_not, Bool.not_false, List.contains_iff_mem, Bool.false_eq_true, if_false]
  by_cases hi : e.flags = [.index]
  · exact .inr (List.mem_filterMap.2 ⟨e, he, by simp [hq, hi]⟩)
  · exact .inl (List.mem_filterMap.2 ⟨e, he, by simp [hq, hi, hf]⟩)

/-- C88, where it holds: without `--allow-staged` and `--allow-dirty`, no run changes a file with uncommitted changes, whether it
finishes or panics, if this file is not `generated.rs`, and is either no file of the directory `r`, or the file of a node, or one of
the `mod.rs` of the directories of nodes. Missing: the other files, see `C88_deleted` and `C88_generated`. -/
theorem C88_uncommitted_partial {args : List Name} {top root : RPath} {statuses : List Entry} {texts : Texts} {files : List RPath}
    {disk : RPath → Option Name} {names : List (NodeKind × Name)} {p : RPath}
    (hs : "--allow-staged".toList ∉ args) (hd : "--allow-dirty".toList ∉ args) (hu : Uncommitted top statuses p)
    (hex : (disk p).isSome) (hg : p ≠ generatedRs root)
    (hp : p ∉ files ∨ IsPath root names p ∨ ∃ d, IsDir root names d ∧ p = modRs d) :
    after (generate (Repo.open args top statuses) root texts files disk names) p = disk p := by
  have hc := uncommitted_check hs hd hu
  have hk := nodes_kept (repo := Repo.open args top statuses) (root := root) (texts := texts) (p := p) names ⟨disk, [], files, []⟩
    fun _ _ _ _ _ => .inr hc
  cases hr : generate (Repo.open args top statuses) root texts files disk names with
  | error st => rw [generate_error hr] at hk; exact hk
  | ok st =>
    obtain ⟨s, h1, h2, h3, h4⟩ := generate_ok hr
    rw [h1] at hk
    have hn : ∀ d, IsDir root names d → p ≠ modRs d := by
      rintro d ⟨kn, hkn, m, hm, hd⟩ rfl
      obtain ⟨m', hm', c1, c2⟩ := (nodes_ok h1).2.1 kn hkn
      rw [hm] at hm'
      cases hm'
      rcases hd with rfl | rfl
      · rw [hc] at c1; cases c1
      · rw [hc] at c2; cases c2
    show st.disk p = disk p
    rw [(h4 p hg hn).2]
    · exact hk
    · rintro ⟨hf, hnp⟩
      rcases hp with hp | hp | ⟨d, hd, hp⟩
      · exact hp hf
      · exact hnp hp
      · exact hn d hd hp

/-- C88: the options that the messages of the generator recommend are never there when it runs: the command line does not take
them. So a file that is not committed is always in the way. -/
theorem C88_options {prog : Name} {rest : List Name} {t : Task} (ht : taskCommand rest = some t) (hf : t.formats = true)
    (hp : prog ≠ "--allow-staged".toList ∧ prog ≠ "--allow-dirty".toList) :
    "--allow-staged".toList ∉ prog :: rest ∧ "--allow-dirty".toList ∉ prog :: rest := by
  have hr : rest = ["formatter".toList] ∨ rest = ["all".toList] := by
    cases rest with
    | nil => cases ht
    | cons c rest =>
      simp only [taskCommand] at ht
      split at ht
      · rename_i hc
        split at ht
        · rename_i hr; left; rw [hc, hr]
        · cases ht
      · split at ht
        · rename_i hc
          split at ht
          · rename_i hr; right; rw [hc, hr]
          · cases ht
        · split at ht
          · split at ht
            · cases ht; cases hf
            · cases ht
          · cases ht
  simp only [List.mem_cons, not_or]
  rcases hr with rfl | rfl
  · exact ⟨⟨fun h => hp.1 h.symm, by decide⟩, ⟨fun h => hp.2 h.symm, by decide⟩⟩
  · exact ⟨⟨fun h => hp.1 h.symm, by decide⟩, ⟨fun h => hp.2 h.symm, by decide⟩⟩

/-- C88: a command line on which the generator runs, and one with an option. -/
example : (taskCommand ["all".toList]).map Task.formats = some true ∧
    taskCommand ["formatter".toList, "--allow-dirty".toList] = none := by decide +kernel

/-- C88 fails for other files: a run that finishes deletes each file of the directory `r` that belongs to no node, with or without
uncommitted changes, whatever the options are; nothing is checked before. -/
theorem C88_deleted {repo : Repo} {root : RPath} {texts : Texts} {files : List RPath} {disk : RPath → Option Name}
    {names : List (NodeKind × Name)} {p : RPath} {st : St} (h : generate repo root texts files disk names = .ok st)
    (hf : p ∈ files) (hg : p ≠ generatedRs root) (hp : ¬ IsPath root names p) (hd : ∀ d, IsDir root names d → p ≠ modRs d) :
    st.disk p = none := by
  obtain ⟨s, -, -, -, h4⟩ := generate_ok h
  exact (h4 p hg hd).1 ⟨hf, hp⟩

/-- C88 fails for `generated.rs`: a run that finishes overwrites it, even if it has uncommitted changes. -/
theorem C88_generated {repo : Repo} {root : RPath} {texts : Texts} {files : List RPath} {disk : RPath → Option Name}
    {names : List (NodeKind × Name)} {st : St} (h : generate repo root texts files disk names = .ok st) :
    st.disk (generatedRs root) = some (texts.generated names) := by
  obtain ⟨s, -, h2, -⟩ := generate_ok h
  exact h2

/-- C88 fails with `--allow-dirty` alone: a file whose changes are staged in part passes the check, although `--allow-staged` is
not given, and the staged version is replaced: all that is written is staged. This is about the function `generate_formatters`; by
`C88_options` the command line does not reach it with that option. -/
theorem C88_half_staged {args : List Name} (hd : "--allow-dirty".toList ∈ args) (hs : "--allow-staged".toList ∉ args)
    (root p : RPath) (fs : List Flag) (hf : fs ≠ [.index]) (paths : List RPath) :
    (Repo.open args root [⟨some p, fs⟩]).check (p ++ root) = true ∧ (Repo.open args root [⟨some p, fs⟩]).toStage paths = paths := by
  have hs' : args.contains "--allow-staged".toList = false := by rw [List.contains_eq_mem]; exact decide_eq_false hs
  have hd' : args.contains "--allow-dirty".toList = true := by rw [List.contains_eq_mem]; exact decide_eq_true hd
  unfold Repo.open Repo.check Repo.toStage
  simp only [hs', hd', Bool.false_eq_true, if_false, if_true]
  simp [hf]

theorem nameToModule_concept {k : NodeKind} {n : Name} {m : Name × Name} (h : nameToModule k n = some m) : m.1 = concept k := by
  unfold nameToModule at h
  split at h
  · cases h
  · split at h
    · cases h
    · split at h
      · cases h
      · split at h
        · cases h
        · split at h
          · cases h; rfl
          · cases h

theorem concept_any {k : NodeKind} : concept k = "any".toList ↔ k.isUnion = true := by
  cases k with
  | union vs => exact ⟨fun _ => rfl, fun _ => rfl⟩
  | list b => exact ⟨fun h => absurd (show "lists".toList = "any".toList from h) (by decide), fun h => by cases h⟩
  | _ => exact ⟨fun h => absurd h (by decide), fun h => by cases h⟩

theorem modulePath_inj {root : RPath} {m m' : Name × Name} (h : modulePath root m = modulePath root m') : m = m' := by
  unfold modulePath at h
  generalize ".rs".toList = e at h
  obtain ⟨h1, h2⟩ := List.cons.inj h
  exact Prod.ext (List.cons.inj h2).1 (List.append_cancel_right h1)

theorem path_ne_generated {root : RPath} {m : Name × Name} : modulePath root m ≠ generatedRs root := fun h => by
  have := congrArg List.length h
  simp [modulePath, generatedRs] at this
  omega

theorem dir_ne_generated {root d : RPath} : modRs d ≠ generatedRs root := by
  intro h'
  simp [modRs, generatedRs] at h'

/-- The file of a node is no `mod.rs`, except for nodes called `RMod`. -/
theorem path_ne_mod {root d : RPath} {m : Name × Name} (h : m.2 ≠ "mod".toList) : modulePath root m ≠ modRs d := by
  intro h'
  simp only [modulePath, modRs, List.cons.injEq] at h'
  exact h (List.append_cancel_right (bs := ".rs".toList) h'.1)

/-- C88: the implementation of a node that is no union is never changed once it exists, in any run with any options, for any
grammar, unless the node is called `RMod`. -/
theorem C88_handwritten {repo : Repo} {root : RPath} {texts : Texts} {files : List RPath} {disk : RPath → Option Name}
    {names : List (NodeKind × Name)} {kn : NodeKind × Name} {m : Name × Name} (hkn : kn ∈ names) (hu : kn.1.isUnion = false)
    (hm : nameToModule kn.1 kn.2 = some m) (hmod : m.2 ≠ "mod".toList) (hex : (disk (modulePath root m)).isSome) :
    after (generate repo root texts files disk names) (modulePath root m) = disk (modulePath root m) := by
  have hk := nodes_kept (repo := repo) (root := root) (texts := texts) (p := modulePath root m) names ⟨disk, [], files, []⟩ (by
    intro kn' _ m' hm' hp
    left
    refine ⟨?_, hex⟩
    have he := modulePath_inj hp
    subst he
    have h1 := nameToModule_concept hm
    have h2 := nameToModule_concept hm'
    rw [← Bool.not_eq_true, ← concept_any, ← h2, h1, concept_any, hu]
    simp)
  cases hr : generate repo root texts files disk names with
  | error st => rw [generate_error hr] at hk; exact hk
  | ok st =>
    obtain ⟨s, h1, -, -, h4⟩ := generate_ok hr
    rw [h1] at hk
    show st.disk _ = _
    rw [(h4 _ path_ne_generated fun d _ => path_ne_mod hmod).2]
    · exact hk
    · exact fun h => h.2 ⟨kn, hkn, m, hm, rfl⟩

theorem node_staged {repo : Repo} {root : RPath} {texts : Texts} {st st' : St} {kn : NodeKind × Name}
    (h : genNode repo root texts st kn = .ok st') (p : RPath) :
    (p ∈ st.stage → p ∈ st'.stage) ∧ (st'.disk p ≠ st.disk p → p ∈ st'.stage) := by
  unfold genNode at h
  cases hm : nameToModule kn.1 kn.2 with
  | none => simp [hm] at h
  | some m =>
    simp only [hm] at h
    cases hi : insert repo root st m with
    | error s => simp [hi] at h
    | ok s =>
      simp only [hi] at h
      obtain ⟨hs, -, -⟩ := insert_ok hi
      split at h
      · cases h; rw [hs]; simp
      · split at h
        · cases h
          rw [hs]
          refine ⟨fun hp => by simp [hp], fun hp => ?_⟩
          simp only [write] at hp
          split at hp
          · rename_i he; simp [he]
          · exact absurd rfl hp
        · cases h

theorem nodes_staged {repo : Repo} {root : RPath} {texts : Texts} (p : RPath) : ∀ {names : List (NodeKind × Name)} {st st' : St},
    genNodes repo root texts st names = .ok st' →
    (p ∈ st.stage → p ∈ st'.stage) ∧ (st'.disk p ≠ st.disk p → p ∈ st'.stage)
  | [], st, st', h => by cases h; simp
  | kn :: rest, st, st', h => by
    unfold genNodes at h
    cases hg : genNode repo root texts st kn with
    | error s => simp [hg] at h
    | ok s =>
      simp only [hg] at h
      have h1 := node_staged hg p
      have h2 := nodes_staged p h
      refine ⟨fun hp => h2.1 (h1.1 hp), fun hp => ?_⟩
      by_cases he : s.disk p = st.disk p
      · exact h2.2 (by rw [he]; exact hp)
      · exact h2.1 (h1.2 he)

theorem printMods_staged {texts : Texts} {ms : List (RPath × Name)} (p : RPath) : ∀ (dirs : List RPath) (st : St),
    (p ∈ st.stage → p ∈ (printMods texts ms st dirs).stage) ∧
    ((printMods texts ms st dirs).disk p ≠ st.disk p → p ∈ (printMods texts ms st dirs).stage)
  | [], st => by simp [printMods]
  | d :: rest, st => by
    have ih := printMods_staged (texts := texts) (ms := ms) p rest
      { st with
        disk := write st.disk (modRs d) (modText texts ms d)
        unused := st.unused.filter (· ≠ modRs d)
        stage := st.stage ++ [modRs d] }
    simp only [printMods]
    refine ⟨fun hp => ih.1 (by simp [hp]), fun hp => ?_⟩
    by_cases he : p = modRs d
    · exact ih.1 (by simp [he])
    · exact ih.2 (by simpa [write, he] using hp)

/-- C88: without `--allow-staged`, a run that finishes stages each file that it has written, changed or deleted: the working tree
differs from the index in no new place. -/
theorem C88_staged {args : List Name} {top root : RPath} {statuses : List Entry} {texts : Texts} {files : List RPath}
    {disk : RPath → Option Name} {names : List (NodeKind × Name)} {st : St} (hs : "--allow-staged".toList ∉ args)
    (h : generate (Repo.open args top statuses) root texts files disk names = .ok st) {p : RPath} (hp : st.disk p ≠ disk p) :
    p ∈ (Repo.open args top statuses).toStage st.stage := by
  have hs' : (Repo.open args top statuses).allowStaged = false := by
    unfold Repo.open
    simp only [List.contains_eq_mem]
    exact decide_eq_false hs
  unfold Repo.toStage
  rw [hs', if_neg (by simp)]
  unfold generate at h
  cases hg : genNodes (Repo.open args top statuses) root texts ⟨disk, [], files, []⟩ names with
  | error s => simp [hg] at h
  | ok s =>
    simp only [hg, Except.ok.injEq] at h
    have h1 := nodes_staged p hg
    have h2 := printMods_staged (texts := texts) (ms := s.modules) p (s.modules.map Prod.fst).eraseDups s
    subst h
    simp only [printIndex, write] at hp ⊢
    by_cases hgen : p = generatedRs root
    · simp [hgen]
    · rw [if_neg hgen] at hp
      rw [List.mem_append, List.mem_append]
      left
      by_cases hu : p ∈ (printMods texts s.modules s (s.modules.map Prod.fst).eraseDups).unused
      · exact .inr hu
      · rw [if_neg hu] at hp
        left
        by_cases he : (printMods texts s.modules s (s.modules.map Prod.fst).eraseDups).disk p = s.disk p
        · exact h2.1 (h1.2 (by rw [← he]; exact hp))
        · exact h2.2 he

/-! ## C89 -/

/-- C89: after a run that finishes, the files of the directory `r` are those of the nodes and the `mod.rs` of their directories,
and there are no others, if `files` are all files of that directory. -/
theorem C89_files {repo : Repo} {root : RPath} {texts : Texts} {files : List RPath} {disk : RPath → Option Name}
    {names : List (NodeKind × Name)} {st : St} (h : generate repo root texts files disk names = .ok st)
    (hall : ∀ p, ("r".toList :: root) <:+ p → (disk p).isSome → p ∈ files) {p : RPath} (hp : ("r".toList :: root) <:+ p) :
    (st.disk p).isSome ↔ IsPath root names p ∨ ∃ d, IsDir root names d ∧ p = modRs d := by
  obtain ⟨s, h1, -, h3, h4⟩ := generate_ok h
  have hg : p ≠ generatedRs root := by
    rintro rfl
    have hl := List.IsSuffix.eq_of_length hp (by simp [generatedRs])
    simp [generatedRs] at hl
  by_cases hd : ∃ d, IsDir root names d ∧ p = modRs d
  · obtain ⟨d, hd', rfl⟩ := hd
    rw [h3 d hd' hg]
    simp only [Option.isSome_some, true_iff]
    exact .inr ⟨d, hd', rfl⟩
  · have hd' : ∀ d, IsDir root names d → p ≠ modRs d := fun d h1 h2 => hd ⟨d, h1, h2⟩
    have h5 := (nodes_ok h1).2.2 p
    by_cases hpath : IsPath root names p
    · rw [(h4 p hg hd').2 fun h => h.2 hpath, h5]
      simp [hpath]
    · by_cases hf : p ∈ files
      · rw [(h4 p hg hd').1 ⟨hf, hpath⟩]
        simp [hpath, hd]
      · rw [(h4 p hg hd').2 fun h => hf h.1, h5]
        simp only [hpath, hd, or_false, iff_false]
        exact fun h => hf (hall p hp h)

/-- C89: the modules that a `mod.rs` declares are those of the nodes of its directory, or the directories themselves. -/
theorem C89_declared (root : RPath) (names : List (NodeKind × Name)) (d : RPath) (i : Name) :
    i ∈ ((allMods root names).filter fun m => m.1 = d).map Prod.snd ↔
      ∃ kn ∈ names, ∃ m, nameToModule kn.1 kn.2 = some m ∧
        (d = m.1 :: "r".toList :: root ∧ i = m.2 ∨ d = "r".toList :: root ∧ i = m.1) := by
  simp only [allMods, List.mem_map, List.mem_filter, List.mem_flatMap]
  constructor
  · rintro ⟨x, ⟨⟨kn, hk, hx⟩, hd⟩, rfl⟩
    cases hm : nameToModule kn.1 kn.2 with
    | none => simp [hm] at hx
    | some m =>
      simp only [hm, mods, List.mem_cons, List.not_mem_nil, or_false] at hx
      simp only [decide_eq_true_eq] at hd
      refine ⟨kn, hk, m, hm, ?_⟩
      rcases hx with rfl | rfl
      · exact .inl ⟨hd.symm, rfl⟩
      · exact .inr ⟨hd.symm, rfl⟩
  · rintro ⟨kn, hk, m, hm, ⟨rfl, rfl⟩ | ⟨rfl, rfl⟩⟩
    · exact ⟨(m.1 :: "r".toList :: root, m.2), ⟨⟨kn, hk, by simp [hm, mods]⟩, by simp⟩, rfl⟩
    · exact ⟨("r".toList :: root, m.1), ⟨⟨kn, hk, by simp [hm, mods]⟩, by simp⟩, rfl⟩

theorem nodup_of_eraseDups : ∀ (k : Nat) (l : List Name), l.length ≤ k → l.eraseDups.Nodup
  | _, [], _ => by simp
  | 0, _ :: _, h => by simp at h
  | k + 1, a :: l, h => by
    rw [List.eraseDups_cons, List.nodup_cons]
    refine ⟨by simp [List.mem_eraseDups], nodup_of_eraseDups k _ ?_⟩
    have := List.length_filter_le (fun b => !b == a) l
    simp at h
    omega

/-- C89: the text of each `mod.rs` after a run that finishes: one declaration for each module of `C89_declared`, and the attribute
for a module that is called like its directory. -/
theorem C89_mod {repo : Repo} {root : RPath} {texts : Texts} {files : List RPath} {disk : RPath → Option Name}
    {names : List (NodeKind × Name)} {st : St} (h : generate repo root texts files disk names = .ok st) {d : RPath}
    (hd : IsDir root names d) : ∃ imports : List Name, imports.Nodup ∧
      (∀ i, i ∈ imports ↔ ∃ kn ∈ names, ∃ m, nameToModule kn.1 kn.2 = some m ∧
        (d = m.1 :: "r".toList :: root ∧ i = m.2 ∨ d = "r".toList :: root ∧ i = m.1)) ∧
      st.disk (modRs d) = some (texts.pretty (imports.flatMap fun i =>
        (if d.head? = some i then "#[allow(clippy::module_inception)]\n".toList else []) ++
          "pub(crate) mod ".toList ++ i ++ ";\n".toList)) := by
  obtain ⟨s, -, -, h3, -⟩ := generate_ok h
  refine ⟨(((allMods root names).filter fun m => m.1 = d).map Prod.snd).eraseDups, ?_, fun i => ?_, ?_⟩
  · exact nodup_of_eraseDups _ _ (Nat.le_refl _)
  · rw [List.mem_eraseDups, C89_declared]
  · rw [h3 d hd dir_ne_generated]
    rfl

theorem unions_same {repo repo' : Repo} {root : RPath} {texts : Texts} {p : RPath} : ∀ {names : List (NodeKind × Name)} {s t s' t' : St},
    genNodes repo root texts s names = .ok s' → genNodes repo' root texts t names = .ok t' →
    (∀ kn ∈ names, ∀ m, nameToModule kn.1 kn.2 = some m → modulePath root m = p → kn.1.isUnion = true) →
    (s.disk p = t.disk p ∨ IsPath root names p) → s'.disk p = t'.disk p
  | [], s, t, s', t', hs, ht, _, h => by
    cases hs; cases ht
    simpa [IsPath] using h
  | kn :: rest, s, t, s', t', hs, ht, hu, h => by
    unfold genNodes at hs ht
    cases hg : genNode repo root texts s kn with
    | error s => simp [hg] at hs
    | ok s1 =>
      cases hg' : genNode repo' root texts t kn with
      | error s => simp [hg'] at ht
      | ok t1 =>
        simp only [hg] at hs
        simp only [hg'] at ht
        obtain ⟨m, hm, -, -, -, -, -, h6, h7⟩ := node_ok hg
        obtain ⟨m', hm', -, -, -, -, -, h6', h7'⟩ := node_ok hg'
        rw [hm] at hm'
        cases hm'
        refine unions_same hs ht (fun kn' hk => hu kn' (by simp [hk])) ?_
        by_cases hp : p = modulePath root m
        · have := hu kn (by simp) m hm hp.symm
          left
          rw [hp, h7 this, h7' this]
        · rw [h6 p hp, h6' p hp]
          refine h.imp id ?_
          rintro ⟨kn', hk, m', hm', hp'⟩
          rcases List.mem_cons.1 hk with rfl | hk
          · rw [hm] at hm'; cases hm'; exact absurd hp'.symm hp
          · exact ⟨kn', hk, m', hm', hp'⟩

/-- C89: a second run, from the files that the first one leaves, changes nothing, if both finish. -/
theorem C89_again {repo repo' : Repo} {root : RPath} {texts : Texts} {files files' : List RPath} {disk : RPath → Option Name}
    {names : List (NodeKind × Name)} {st st' : St} (h : generate repo root texts files disk names = .ok st)
    (hall : ∀ p, ("r".toList :: root) <:+ p → (disk p).isSome → p ∈ files)
    (h' : generate repo' root texts files' st.disk names = .ok st')
    (hfiles : ∀ p ∈ files', ("r".toList :: root) <:+ p ∧ (st.disk p).isSome) : st'.disk = st.disk := by
  funext p
  obtain ⟨s, a1, a2, a3, a4⟩ := generate_ok h
  obtain ⟨s', b1, b2, b3, b4⟩ := generate_ok h'
  by_cases hg : p = generatedRs root
  · rw [hg, a2, b2]
  by_cases hd : ∃ d, IsDir root names d ∧ p = modRs d
  · obtain ⟨d, hd', rfl⟩ := hd
    rw [a3 d hd' hg, b3 d hd' hg]
  have hd' : ∀ d, IsDir root names d → p ≠ modRs d := fun d h1 h2 => hd ⟨d, h1, h2⟩
  have hun : ¬ (p ∈ files' ∧ ¬ IsPath root names p) := by
    rintro ⟨hf, hp⟩
    have := (C89_files h hall (hfiles p hf).1).1 (hfiles p hf).2
    exact this.elim hp hd
  rw [(b4 p hg hd').2 hun]
  by_cases hpath : IsPath root names p
  · obtain ⟨kn, hk, m, hm, rfl⟩ := hpath
    have hpath : IsPath root names (modulePath root m) := ⟨kn, hk, m, hm, rfl⟩
    have e1 := (a4 _ hg hd').2 fun h => h.2 hpath
    have same : ∀ kn' : NodeKind × Name, ∀ m', nameToModule kn'.1 kn'.2 = some m' → modulePath root m' = modulePath root m →
        (kn'.1.isUnion = true ↔ kn.1.isUnion = true) := by
      intro kn' m' hm' hp
      have he := modulePath_inj hp
      subst he
      rw [← concept_any, ← concept_any, ← nameToModule_concept hm, ← nameToModule_concept hm']
    cases hu : kn.1.isUnion with
    | true =>
      rw [e1]
      exact (unions_same a1 b1 (fun kn' _ m' hm' hp => (same kn' m' hm' hp).2 hu) (.inr hpath)).symm
    | false =>
      have hsome : (st.disk (modulePath root m)).isSome := by
        rw [e1, (nodes_ok a1).2.2]
        exact .inr hpath
      have hk' := nodes_kept (repo := repo') (root := root) (texts := texts) (p := modulePath root m) names ⟨st.disk, [], files', []⟩ (by
        intro kn' _ m' hm' hp
        refine .inl ⟨?_, hsome⟩
        rw [← Bool.not_eq_true, same kn' m' hm' hp, hu]
        simp)
      rw [b1] at hk'
      exact hk'
  · have hk' := nodes_kept (repo := repo') (root := root) (texts := texts) (p := p) names ⟨st.disk, [], files', []⟩
      fun kn hk m hm hp => absurd ⟨kn, hk, m, hm, hp⟩ hpath
    rw [b1] at hk'
    exact hk'

/-- From snake case to camel case, but for the first character. -/
def unsnake : Name → Name
  | [] => []
  | ['_'] => ['_']
  | '_' :: c :: cs => c.toUpper :: unsnake cs
  | c :: cs => c :: unsnake cs

theorem ascii_chars : ∀ n < 128, (Char.ofNat n).isLower = false → (Char.ofNat n).toLower.toUpper = Char.ofNat n := by decide

theorem ascii_upper {c : Char} (h : c.toNat < 128) (hl : c.isLower = false) : c.toLower.toUpper = c := by
  have := ascii_chars c.toNat h
  rw [Char.ofNat_toNat] at this
  exact this hl

theorem unsnake_flat : ∀ cs : Name, (∀ c ∈ cs, c.toNat < 128) →
    unsnake (cs.flatMap fun c => if c.isLower then [c] else ['_', c.toLower]) = cs
  | [], _ => rfl
  | c :: cs, h => by
    have ih := unsnake_flat cs fun c hc => h c (by simp [hc])
    cases hl : c.isLower with
    | false =>
      simp only [List.flatMap_cons, hl, Bool.false_eq_true, if_false, List.cons_append, List.nil_append]
      simp only [unsnake]
      rw [ascii_upper (h c (by simp)) hl, ih]
    | true =>
      have hne : c ≠ '_' := by rintro rfl; revert hl; decide
      simp only [List.flatMap_cons, hl, if_true, List.cons_append, List.nil_append]
      rw [unsnake, ih] <;> simp [hne]

theorem snake_inj {c c' : Char} {n n' : Name} (hc : c.isLower = false) (hc' : c'.isLower = false)
    (h : ∀ d ∈ c :: n, d.toNat < 128) (h' : ∀ d ∈ c' :: n', d.toNat < 128) (he : snake (c :: n) = snake (c' :: n')) :
    c :: n = c' :: n' := by
  simp only [snake, hc, hc', Bool.false_eq_true, if_false, List.cons_append, List.nil_append, List.cons.injEq] at he
  have h1 := congrArg Char.toUpper he.1
  have h2 := congrArg unsnake he.2
  rw [ascii_upper (h c (by simp)) hc, ascii_upper (h' c' (by simp)) hc'] at h1
  rw [unsnake_flat n fun d hd => h d (by simp [hd]), unsnake_flat n' fun d hd => h' d (by simp [hd])] at h2
  rw [h1, h2]

theorem splitUpper_R {c : Char} {n : Name} (hc : c.isUpper = true) : splitUpper ('R' :: c :: n) = some (['R'], c :: n) := by
  simp [splitUpper, hc]

theorem module_R {k : NodeKind} {c : Char} {n : Name} (hc : c.isUpper = true) :
    nameToModule k ('R' :: c :: n) = some (concept k, keywordStem (snake (c :: n))) := by
  simp only [nameToModule, splitUpper_R hc]
  rw [if_neg (by decide), if_neg (by decide)]
  simp

/-- C89: two nodes with different names get different modules, in any grammar, except for names that are changed because they
are keywords of Rust, and for unions `AnyR..` with the same rest. -/
theorem C89_distinct {k k' : NodeKind} {c c' : Char} {n n' : Name} (hc : c.isUpper = true) (hc' : c'.isUpper = true)
    (h : ∀ d ∈ c :: n, d.toNat < 128) (h' : ∀ d ∈ c' :: n', d.toNat < 128)
    (hk : ∀ w ∈ ["type".toList, "enum".toList], snake (c :: n) ≠ w ∧ snake (c' :: n') ≠ w)
    (he : nameToModule k ('R' :: c :: n) = nameToModule k' ('R' :: c' :: n')) : c :: n = c' :: n' := by
  have low : ∀ {c : Char}, c.isUpper = true → c.isLower = false := by
    intro c hc
    rw [← Bool.not_eq_true]
    intro hl
    simp only [Char.isUpper, Char.isLower, Bool.and_eq_true, decide_eq_true_eq, ge_iff_le, UInt32.le_iff_toNat_le] at hc hl
    have h1 : (UInt32.toNat 97) = 97 := rfl
    have h2 : (UInt32.toNat 90) = 90 := rfl
    have h3 := hc.2
    have h4 := hl.1
    revert h3 h4
    simp
    omega
  rw [module_R hc, module_R hc'] at he
  obtain ⟨t1, t2⟩ := hk _ (List.mem_cons_self ..)
  obtain ⟨e1, e2⟩ := hk "enum".toList (by simp)
  have hs := (Prod.mk.inj (Option.some.inj he)).2
  unfold keywordStem at hs
  rw [if_neg t1, if_neg e1, if_neg t2, if_neg e2] at hs
  exact snake_inj (low hc) (low hc') h h' hs

theorem splitUpper_some {n a b : Name} (h : splitUpper n = some (a, b)) : n = a ++ b ∧ ∃ c t, b = c :: t ∧ c.isUpper = true := by
  cases n with
  | nil => cases h
  | cons c cs =>
    simp only [splitUpper] at h
    split at h
    · cases h
    · rename_i d ds hd
      cases h
      refine ⟨?_, d, ds, rfl, ?_⟩
      · rw [List.cons_append, ← hd, List.takeWhile_append_dropWhile]
      · have := List.head?_dropWhile_not (fun c : Char => !c.isUpper) cs
        rw [hd] at this
        simpa using this

theorem module_any {k : NodeKind} {c : Char} {n : Name} (hc : c.isUpper = true) :
    nameToModule k ("Any".toList ++ 'R' :: c :: n) = some (concept k, keywordStem (snake (c :: n))) := by
  have h : splitUpper ("Any".toList ++ 'R' :: c :: n) = some ("Any".toList, 'R' :: c :: n) := by
    simp [splitUpper]
  have h' : "Any".toList ++ 'R' :: c :: n = 'A' :: 'n' :: 'y' :: 'R' :: c :: n := by simp
  rw [h'] at h ⊢
  simp only [nameToModule, h, if_pos, splitUpper_R hc]
  rw [if_neg (by decide)]

/-- C89: the names that the generator takes, for others it panics: `R`, or `AnyR`, before a character in upper case. -/
theorem C89_names (k : NodeKind) (n : Name) : (nameToModule k n).isSome ↔
    ∃ c rest, c.isUpper = true ∧ (n = 'R' :: c :: rest ∨ n = "Any".toList ++ 'R' :: c :: rest) := by
  constructor
  · intro h
    unfold nameToModule at h
    split at h
    · cases h
    · split at h
      · cases h
      · split at h
        · cases h
        · rename_i pre rest hs
          obtain ⟨h1, h2⟩ := splitUpper_some hs
          split at h
          · cases h
          · rename_i dialect name hd
            split at h
            · rename_i hr
              split at hd
              · rename_i hp
                obtain ⟨h3, c, t, h4, h5⟩ := splitUpper_some hd
                exact ⟨c, t, h5, .inr (by rw [h1, h3, hp, hr, h4]; rfl)⟩
              · cases hd
                obtain ⟨c, t, h4, h5⟩ := h2
                exact ⟨c, t, h5, .inl (by rw [h1, hr, h4]; rfl)⟩
            · cases h
  · rintro ⟨c, rest, hc, rfl | rfl⟩
    · rw [module_R hc]; rfl
    · rw [module_any hc]; rfl

/-- C89: the exceptions are real. -/
theorem C89_collision : nameToModule .node "RType".toList = nameToModule .node "RTsType".toList ∧
    nameToModule (.union []) "RValue".toList = nameToModule (.union []) "AnyRValue".toList := by decide +kernel

/-- C89: the grammar of R: each type of node has a module, no two have the same one, none is called `mod`, and these are the files in
the repository. -/
theorem C89_air : ((nodeNames rAst).map fun kn => nameToModule kn.1 kn.2).Nodup ∧
    (∀ kn ∈ nodeNames rAst, ∃ m ∈ airModules, nameToModule kn.1 kn.2 = some m ∧ m.2 ≠ "mod".toList) ∧
    (∀ m ∈ airModules, ∃ kn ∈ nodeNames rAst, nameToModule kn.1 kn.2 = some m) := by
  refine ⟨by decide +kernel, ?_, ?_⟩
  · have h : ((nodeNames rAst).all fun kn => airModules.any fun m =>
        decide (nameToModule kn.1 kn.2 = some m ∧ m.2 ≠ "mod".toList)) = true := by decide +kernel
    intro kn hk
    simpa only [List.any_eq_true, decide_eq_true_eq] using List.all_eq_true.1 h kn hk
  · have h : (airModules.all fun m => (nodeNames rAst).any fun kn => decide (nameToModule kn.1 kn.2 = some m)) = true := by
      decide +kernel
    intro m hm
    simpa only [List.any_eq_true, decide_eq_true_eq] using List.all_eq_true.1 h m hm

/-! ## Examples -/

/-- A tree with an implementation, a file that belongs to no node, and a file elsewhere. -/
def exampleDisk (p : RPath) : Option Name :=
  if p = ["call.rs".toList, "auxiliary".toList, "r".toList, "src".toList] then some "by hand".toList
  else if p = ["new.rs".toList, "auxiliary".toList, "r".toList, "src".toList] then some "not yet used".toList
  else if p = ["lib.rs".toList, "src".toList] then some "lib".toList
  else none

/-- The names of a small grammar. -/
def exampleNames : List (NodeKind × Name) :=
  [(.node, "RCall".toList), (.list true, "RArgumentList".toList), (.union ["RCall".toList], "AnyRExpression".toList)]

/-- Texts for examples. -/
def exampleTexts : Texts := ⟨id, fun _ n => n, fun _ => "generated".toList⟩

/-- A run with a file that is not committed and belongs to no node: it finishes, and the file is gone; `C88_deleted` and `C89_files`
apply to it. -/
example :
    let r := generate (Repo.open [] [] [⟨some ["new.rs".toList, "auxiliary".toList, "r".toList, "src".toList], [.other]⟩])
      ["src".toList] exampleTexts
      [["call.rs".toList, "auxiliary".toList, "r".toList, "src".toList], ["new.rs".toList, "auxiliary".toList, "r".toList, "src".toList]]
      exampleDisk exampleNames
    r.toOption.isSome = true ∧
    after r ["new.rs".toList, "auxiliary".toList, "r".toList, "src".toList] = none ∧
    after r ["call.rs".toList, "auxiliary".toList, "r".toList, "src".toList] = some "by hand".toList ∧
    after r ["mod.rs".toList, "r".toList, "src".toList] =
      some "pub(crate) mod auxiliary;\npub(crate) mod lists;\npub(crate) mod any;\n".toList ∧
    after r ["expression.rs".toList, "any".toList, "r".toList, "src".toList] = some "AnyRExpression".toList := by
  decide +kernel

/-- The file of a union that is not committed: the run panics, and `C88_uncommitted_partial` applies. -/
example :
    let p := ["expression.rs".toList, "any".toList, "r".toList, "src".toList]
    let disk := write exampleDisk p "draft".toList
    let r := generate (Repo.open [] [] [⟨some p, [.index]⟩]) ["src".toList] exampleTexts [p] disk exampleNames
    r.toOption.isSome = false ∧ after r p = some "draft".toList := by
  decide +kernel

/-- The same with changes that are staged in part and `--allow-dirty`: the file is overwritten and staged. -/
example :
    let p := ["expression.rs".toList, "any".toList, "r".toList, "src".toList]
    let disk := write exampleDisk p "draft".toList
    let repo := Repo.open ["--allow-dirty".toList] [] [⟨some p, [.index, .other]⟩]
    let r := generate repo ["src".toList] exampleTexts [p] disk exampleNames
    after r p = some "AnyRExpression".toList ∧ (r.toOption.map fun st => (repo.toStage st.stage).contains p) = some true := by
  decide +kernel

/-- `C89_distinct` for two names of the grammar. -/
example : nameToModule .node "RSubset".toList = some ("auxiliary".toList, "subset".toList) ∧
    nameToModule .node "RSubset2Arguments".toList = some ("auxiliary".toList, "subset_2_arguments".toList) ∧
    nameToModule (.union []) "AnyRArgumentName".toList = some ("any".toList, "argument_name".toList) := by
  decide +kernel

end Verif.FormatterGen
