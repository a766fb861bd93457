import Verif.Props.DiscoverSettings

/-!
# C17: file discovery selects exactly the included, non-excluded files
-/

namespace Verif.Discovery

open Verif.Resolver (Path Resolver Item)
open Verif.FilePatterns
open Verif.Settings (Settings Toml)

/-! ## Specification -/

/-- Following the names `rel` from `n` leads to `m`. -/
inductive Has : Node → List String → Node → Prop
  | here (n : Node) : Has n [] n
  | child {children : List (String × Node)} {name : String} {n m : Node} {rel : List String} :
      (name, n) ∈ children → Has n rel m → Has (.dir children) (name :: rel) m

/-- Is a path given by the user left out because it, or one of its parents, is excluded? -/
def RootExcluded (resolver : Resolver Settings) (exclude : Exclude) (path : Path) (isDir : Bool) :
    Prop :=
  exclude = .matched ∧
    anyExcludeMatchedPathOrAnyParents path isDir (Resolver.resolveOrFallback resolver path) =
      some true

/-- Is a path found below a directory left out because it is excluded? -/
def PathExcluded (resolver : Resolver Settings) (exclude : Exclude) (path : Path) (isDir : Bool) :
    Prop :=
  exclude = .matched ∧
    anyExcludeMatchedPath path isDir (Resolver.resolveOrFallback resolver path) = true

/-- Is a file of a kind that is formatted? -/
def Included (resolver : Resolver Settings) (incl : Include) (path : Path) : Prop :=
  incl = .everything ∨ anyIncludeMatchedPath path (Resolver.resolveOrFallback resolver path) = true

/-- Neither the file `root ++ rel` nor a directory between it and the root is excluded, or dropped
by the walker. -/
def PathClear (resolver : Resolver Settings) (exclude : Exclude) (dropped : Path → Bool → Bool)
    (root : Path) (rel : List String) : Prop :=
  (∀ before name after, rel = before ++ name :: after →
    dropped (root ++ before ++ [name]) (!after.isEmpty) = false ∧
    ¬ PathExcluded resolver exclude (root ++ before ++ [name]) (!after.isEmpty))

/-- Like `PathClear`, but leaving out the exclusion of the entry itself. -/
def PathReached (resolver : Resolver Settings) (exclude : Exclude) (dropped : Path → Bool → Bool)
    (root : Path) (rel : List String) : Prop :=
  (∀ before name after, rel = before ++ name :: after →
    dropped (root ++ before ++ [name]) (!after.isEmpty) = false ∧
    (after ≠ [] → ¬ PathExcluded resolver exclude (root ++ before ++ [name]) true))

/-! ## The sequential walk -/

theorem Node.ind {P : Node → Prop} (file : P .file) (error : P .error)
    (dir : ∀ cs, (∀ c ∈ cs, P c.2) → P (.dir cs)) (n : Node) : P n :=
  Node.rec (motive_1 := P) (motive_2 := fun l => ∀ c ∈ l, P c.2) (motive_3 := fun c => P c.2)
    file dir error (by simp) (fun c l h1 h2 d hd => by
      rcases List.mem_cons.mp hd with rfl | hd
      · exact h1
      · exact h2 d hd) (fun _ n h => h) n

section
variable (resolver : Resolver Settings) (exclude : Exclude) (incl : Include)
  (dropped : Path → Bool → Bool)

mutual
/-- Everything found at and below an entry, depth first. -/
def collect (path : Path) (depth : Nat) : Node → List Found
  | .file => (visit resolver exclude incl ⟨path, depth, .file⟩).1
  | .error => (visit resolver exclude incl ⟨path, depth, .error⟩).1
  | .dir cs => (visit resolver exclude incl ⟨path, depth, .dir cs⟩).1 ++
      if (visit resolver exclude incl ⟨path, depth, .dir cs⟩).2 then collectAll path depth cs else []
def collectAll (path : Path) (depth : Nat) : List (String × Node) → List Found
  | [] => []
  | (name, n) :: rest =>
    (if dropped (path ++ [name]) n.isDir then [] else collect (path ++ [name]) (depth + 1) n) ++
      collectAll path depth rest
end

def collectEntry (e : Entry) : List Found :=
  collect resolver exclude incl dropped e.path e.depth e.node

theorem collectAll_eq (path : Path) (depth : Nat) (cs : List (String × Node)) :
    collectAll resolver exclude incl dropped path depth cs =
      ((cs.filter fun c => !dropped (path ++ [c.1]) c.2.isDir).map fun c =>
        (⟨path ++ [c.1], depth + 1, c.2⟩ : Entry)).flatMap
          (collectEntry resolver exclude incl dropped) := by
  induction cs with
  | nil => simp [collectAll]
  | cons c cs ih =>
    obtain ⟨name, n⟩ := c
    rw [collectAll, ih]
    by_cases h : dropped (path ++ [name]) n.isDir = true
    · simp [h]
    · simp [h, collectEntry]

theorem collectEntry_eq (e : Entry) :
    collectEntry resolver exclude incl dropped e =
      (visit resolver exclude incl e).1 ++
        (if (visit resolver exclude incl e).2 then below dropped e else []).flatMap
          (collectEntry resolver exclude incl dropped) := by
  obtain ⟨path, depth, node⟩ := e
  cases node with
  | file => simp [collectEntry, collect, below]
  | error => simp [collectEntry, collect, below]
  | dir cs =>
    simp only [collectEntry, collect, below]
    split
    · rw [collectAll_eq]
    · simp

/-- Nothing is lost or duplicated by a step. -/
theorem step_perm {a b : Walk} (h : Step resolver exclude incl dropped a b) :
    (b.threads.flatten ++ b.pending.flatMap (collectEntry resolver exclude incl dropped)).Perm
      (a.threads.flatten ++ a.pending.flatMap (collectEntry resolver exclude incl dropped)) := by
  obtain ⟨before, after, e, left, right, own⟩ := h
  simp only [List.flatten_append, List.flatten_cons, List.flatMap_append, List.flatMap_cons]
  rw [collectEntry_eq resolver exclude incl dropped e]
  generalize (visit resolver exclude incl e).1 = v
  generalize List.flatMap (collectEntry resolver exclude incl dropped)
    (if (visit resolver exclude incl e).2 = true then below dropped e else []) = w
  generalize left.flatten = l
  generalize right.flatten = r
  generalize List.flatMap (collectEntry resolver exclude incl dropped) before = x
  generalize List.flatMap (collectEntry resolver exclude incl dropped) after = y
  rw [List.perm_iff_count]
  intro f
  simp only [List.count_append]
  omega

theorem steps_perm {a b : Walk} (h : Steps resolver exclude incl dropped a b) :
    (b.threads.flatten ++ b.pending.flatMap (collectEntry resolver exclude incl dropped)).Perm
      (a.threads.flatten ++ a.pending.flatMap (collectEntry resolver exclude incl dropped)) := by
  induction h with
  | refl => exact .refl _
  | tail _ hs ih => exact (step_perm resolver exclude incl dropped hs).trans ih

theorem foldl_transfer (l : List (List Found)) (files : List Found) :
    l.foldl transfer files = files ++ l.flatten := by
  induction l generalizing files with
  | nil => simp
  | cons x l ih =>
    rw [List.foldl_cons, ih, transfer]
    cases files with
    | nil => simp
    | cons f fs => simp

/-- The result of a parallel walk is a permutation of the result of walking the roots one after the
other. -/
theorem discover_perm {roots : List (Path × Node)} {result : List Found}
    (h : DiscoverFiles resolver exclude incl dropped roots result) :
    result.Perm (roots.flatMap fun r => collect resolver exclude incl dropped r.1 0 r.2) := by
  obtain ⟨n, final, finishing, h1, h2, h3, rfl⟩ := h
  rw [foldl_transfer, List.nil_append]
  have h4 := steps_perm resolver exclude incl dropped h1
  rw [h2] at h4
  have h5 : ∀ n, (List.replicate n ([] : List Found)).flatten = [] := by
    intro n; induction n with
    | zero => rfl
    | succ n ih => simp
  simp only [List.flatMap_nil, List.append_nil, h5, List.nil_append, List.flatMap_map] at h4
  exact h3.flatten.trans h4

/-! ## What the sequential walk finds -/

/-- Is the entry excluded (at depth 0 the parents count too)? -/
def ExcludedAt (path : Path) (depth : Nat) (isDir : Bool) : Prop :=
  if depth = 0 then RootExcluded resolver exclude path isDir
  else PathExcluded resolver exclude path isDir

theorem visit_dir (path : Path) (depth : Nat) (cs : List (String × Node)) :
    (visit resolver exclude incl ⟨path, depth, .dir cs⟩).1 = [] ∧
    ((visit resolver exclude incl ⟨path, depth, .dir cs⟩).2 = true ↔
      ¬ ExcludedAt resolver exclude path depth true) := by
  simp only [visit, Node.isDir, ExcludedAt, RootExcluded, PathExcluded]
  cases exclude <;> by_cases hd : depth = 0 <;> simp [hd] <;> split <;> simp_all

theorem visit_file (path : Path) (depth : Nat) (f : Found) :
    f ∈ (visit resolver exclude incl ⟨path, depth, .file⟩).1 ↔
      f = .file path ∧ ¬ ExcludedAt resolver exclude path depth false ∧
        Included resolver incl path := by
  simp only [visit, Node.isDir, ExcludedAt, RootExcluded, PathExcluded, Included]
  cases exclude <;> cases incl <;> by_cases hd : depth = 0 <;> simp [hd] <;>
    (repeat' split) <;> simp_all

theorem clear_cons (root : Path) (name : String) (rel : List String) :
    PathClear resolver exclude dropped root (name :: rel) ↔
      dropped (root ++ [name]) (!rel.isEmpty) = false ∧
      ¬ PathExcluded resolver exclude (root ++ [name]) (!rel.isEmpty) ∧
      PathClear resolver exclude dropped (root ++ [name]) rel := by
  constructor
  · intro h
    have h0 := h [] name rel rfl
    simp only [List.append_nil] at h0
    refine ⟨h0.1, h0.2, ?_⟩
    intro before name' after he
    have := h (name :: before) name' after (by simp [he])
    simpa using this
  · rintro ⟨h1, h2, h3⟩ before name' after he
    cases before with
    | nil =>
      simp only [List.nil_append, List.cons.injEq] at he
      obtain ⟨rfl, rfl⟩ := he
      simpa using ⟨h1, h2⟩
    | cons b before =>
      simp only [List.cons_append, List.cons.injEq] at he
      obtain ⟨rfl, rfl⟩ := he
      simpa using h3 before name' after rfl

theorem reached_cons (root : Path) (name : String) (rel : List String) :
    PathReached resolver exclude dropped root (name :: rel) ↔
      dropped (root ++ [name]) (!rel.isEmpty) = false ∧
      (rel ≠ [] → ¬ PathExcluded resolver exclude (root ++ [name]) true) ∧
      PathReached resolver exclude dropped (root ++ [name]) rel := by
  constructor
  · intro h
    have h0 := h [] name rel rfl
    simp only [List.append_nil] at h0
    refine ⟨h0.1, h0.2, ?_⟩
    intro before name' after he
    have := h (name :: before) name' after (by simp [he])
    simpa using this
  · rintro ⟨h1, h2, h3⟩ before name' after he
    cases before with
    | nil =>
      simp only [List.nil_append, List.cons.injEq] at he
      obtain ⟨rfl, rfl⟩ := he
      simpa using ⟨h1, h2⟩
    | cons b before =>
      simp only [List.cons_append, List.cons.injEq] at he
      obtain ⟨rfl, rfl⟩ := he
      simpa using h3 before name' after rfl

theorem has_isDir {n m : Node} {rel : List String} (hm : m.isDir = false) (h : Has n rel m) :
    n.isDir = !rel.isEmpty := by
  cases h with
  | here => simp [hm]
  | child => simp [Node.isDir]

theorem has_leaf {n m : Node} {rel : List String} (hn : n.isDir = false) (h : Has n rel m) :
    rel = [] ∧ m = n := by
  cases h with
  | here => exact ⟨rfl, rfl⟩
  | child => simp [Node.isDir] at hn

theorem mem_collectAll (path : Path) (depth : Nat) (cs : List (String × Node)) (f : Found) :
    f ∈ collectAll resolver exclude incl dropped path depth cs ↔
      ∃ c ∈ cs, dropped (path ++ [c.1]) c.2.isDir = false ∧
        f ∈ collect resolver exclude incl dropped (path ++ [c.1]) (depth + 1) c.2 := by
  rw [collectAll_eq]
  simp only [collectEntry, List.mem_flatMap, List.mem_map, List.mem_filter, Bool.not_eq_true']
  constructor
  · rintro ⟨e, ⟨c, ⟨h1, h2⟩, rfl⟩, h3⟩; exact ⟨c, h1, h2, h3⟩
  · rintro ⟨c, h1, h2, h3⟩; exact ⟨_, ⟨c, ⟨h1, h2⟩, rfl⟩, h3⟩

theorem mem_collect_file (n : Node) (path : Path) (depth : Nat) (p : Path) :
    Found.file p ∈ collect resolver exclude incl dropped path depth n ↔
      ∃ rel, Has n rel .file ∧ p = path ++ rel ∧
        ¬ ExcludedAt resolver exclude path depth (!rel.isEmpty) ∧
        PathClear resolver exclude dropped path rel ∧ Included resolver incl p := by
  induction n using Node.ind generalizing path depth with
  | file =>
    rw [collect, visit_file]
    constructor
    · rintro ⟨h1, h2, h3⟩
      cases h1
      exact ⟨[], .here _, by simp, by simpa using h2, by intro b n a h; simp at h, h3⟩
    · rintro ⟨rel, h1, rfl, h2, _, h3⟩
      obtain ⟨rfl, _⟩ := has_leaf rfl h1
      simp only [List.append_nil, List.isEmpty_nil, Bool.not_true] at h2 h3 ⊢
      exact ⟨trivial, h2, h3⟩
  | error =>
    rw [collect]
    constructor
    · intro h; simp [visit] at h
    · rintro ⟨rel, h1, _⟩
      have := has_leaf rfl h1
      cases this.2
  | dir cs ih =>
    rw [collect]
    obtain ⟨hv1, hv2⟩ := visit_dir resolver exclude incl path depth cs
    rw [hv1, List.nil_append]
    constructor
    · intro h
      split at h
      · rename_i hc
        obtain ⟨c, hc1, hc2, hc3⟩ := (mem_collectAll ..).mp h
        obtain ⟨rel, h1, h2, h3, h4, h5⟩ := (ih c hc1 _ _).mp hc3
        refine ⟨c.1 :: rel, .child hc1 h1, by simp [h2], by simpa using hv2.mp hc, ?_, h5⟩
        rw [clear_cons]
        have hd := has_isDir rfl h1
        exact ⟨by rw [← hd]; exact hc2, by simpa [ExcludedAt] using h3, h4⟩
      · cases h
    · rintro ⟨rel, h1, rfl, h2, h3, h4⟩
      cases h1 with
      | @child _ name c _ rel hm h1 =>
        rw [if_pos (hv2.mpr (by simpa using h2))]
        rw [clear_cons] at h3
        have hd := has_isDir rfl h1
        refine (mem_collectAll ..).mpr ⟨(name, c), hm, by rw [hd]; exact h3.1, ?_⟩
        exact (ih _ hm _ _).mpr ⟨rel, h1, by simp, by simpa [ExcludedAt] using h3.2.1, h3.2.2, h4⟩

theorem mem_collect_error (n : Node) (path : Path) (depth : Nat) (p : Path) :
    Found.error p ∈ collect resolver exclude incl dropped path depth n ↔
      ∃ rel, Has n rel .error ∧ p = path ++ rel ∧
        (rel ≠ [] → ¬ ExcludedAt resolver exclude path depth true) ∧
        PathReached resolver exclude dropped path rel := by
  induction n using Node.ind generalizing path depth with
  | file =>
    rw [collect, visit_file]
    constructor
    · rintro ⟨h1, _⟩; cases h1
    · rintro ⟨rel, h1, _⟩
      have := has_leaf rfl h1
      cases this.2
  | error =>
    rw [collect]
    constructor
    · intro h
      simp only [visit, List.mem_singleton, Found.error.injEq] at h
      exact ⟨[], .here _, by simp [h], by simp, by intro b n a h; simp at h⟩
    · rintro ⟨rel, h1, rfl, _⟩
      obtain ⟨rfl, _⟩ := has_leaf rfl h1
      simp [visit]
  | dir cs ih =>
    rw [collect]
    obtain ⟨hv1, hv2⟩ := visit_dir resolver exclude incl path depth cs
    rw [hv1, List.nil_append]
    constructor
    · intro h
      split at h
      · rename_i hc
        obtain ⟨c, hc1, hc2, hc3⟩ := (mem_collectAll ..).mp h
        obtain ⟨rel, h1, h2, h3, h4⟩ := (ih c hc1 _ _).mp hc3
        refine ⟨c.1 :: rel, .child hc1 h1, by simp [h2], fun _ => hv2.mp hc, ?_⟩
        rw [reached_cons]
        have hd := has_isDir rfl h1
        exact ⟨by rw [← hd]; exact hc2, by simpa [ExcludedAt] using h3, h4⟩
      · cases h
    · rintro ⟨rel, h1, rfl, h2, h3⟩
      cases h1 with
      | @child _ name c _ rel hm h1 =>
        rw [if_pos (hv2.mpr (h2 (by simp)))]
        rw [reached_cons] at h3
        have hd := has_isDir rfl h1
        refine (mem_collectAll ..).mpr ⟨(name, c), hm, by rw [hd]; exact h3.1, ?_⟩
        exact (ih _ hm _ _).mpr ⟨rel, h1, by simp, by simpa [ExcludedAt] using h3.2.1, h3.2.2⟩

/-! ## C17 -/

/-- C17: whatever the number of threads and their schedule, a file is reported exactly if it lies at
or below one of the given paths, that path is not excluded (nor one of its parents), nothing from
there down to the file is excluded or dropped by the walker's own filters, and it is of an
included kind. -/
theorem C17_selected (roots : List (Path × Node)) (result : List Found)
    (h : DiscoverFiles resolver exclude incl dropped roots result) (p : Path) :
    Found.file p ∈ result ↔
      ∃ root n rel, (root, n) ∈ roots ∧ Has n rel .file ∧ p = root ++ rel ∧
        ¬ RootExcluded resolver exclude root (!rel.isEmpty) ∧
        PathClear resolver exclude dropped root rel ∧ Included resolver incl p := by
  rw [(discover_perm _ _ _ _ h).mem_iff, List.mem_flatMap]
  constructor
  · rintro ⟨⟨root, n⟩, hr, hm⟩
    obtain ⟨rel, h1, h2, h3, h4, h5⟩ := (mem_collect_file ..).mp hm
    exact ⟨root, n, rel, hr, h1, h2, h3, h4, h5⟩
  · rintro ⟨root, n, rel, hr, h1, h2, h3, h4, h5⟩
    exact ⟨(root, n), hr, (mem_collect_file ..).mpr ⟨rel, h1, h2, h3, h4, h5⟩⟩

/-- C17: every error of the walker that is met is reported. -/
theorem C17_errors (roots : List (Path × Node)) (result : List Found)
    (h : DiscoverFiles resolver exclude incl dropped roots result) (p : Path) :
    Found.error p ∈ result ↔
      ∃ root n rel, (root, n) ∈ roots ∧ Has n rel .error ∧ p = root ++ rel ∧
        (rel ≠ [] → ¬ RootExcluded resolver exclude root true) ∧
        PathReached resolver exclude dropped root rel := by
  rw [(discover_perm _ _ _ _ h).mem_iff, List.mem_flatMap]
  constructor
  · rintro ⟨⟨root, n⟩, hr, hm⟩
    obtain ⟨rel, h1, h2, h3, h4⟩ := (mem_collect_error ..).mp hm
    exact ⟨root, n, rel, hr, h1, h2, h3, h4⟩
  · rintro ⟨root, n, rel, hr, h1, h2, h3, h4⟩
    exact ⟨(root, n), hr, (mem_collect_error ..).mpr ⟨rel, h1, h2, h3, h4⟩⟩

/-! ### No duplicates -/

/-- The names in every directory are pairwise different. -/
def DistinctNames (n : Node) : Prop :=
  ∀ rel cs, Has n rel (.dir cs) → (cs.map Prod.fst).Nodup

def Found.path : Found → Path
  | .file p => p
  | .error p => p

theorem collect_prefix (n : Node) (path : Path) (depth : Nat) (f : Found)
    (h : f ∈ collect resolver exclude incl dropped path depth n) : path <+: f.path := by
  cases f with
  | file p =>
    obtain ⟨rel, _, rfl, _⟩ := (mem_collect_file ..).mp h
    exact List.prefix_append _ _
  | error p =>
    obtain ⟨rel, _, rfl, _⟩ := (mem_collect_error ..).mp h
    exact List.prefix_append _ _

theorem collectAll_nodup (path : Path) (depth : Nat) (cs : List (String × Node))
    (hcs : (cs.map Prod.fst).Nodup)
    (h : ∀ c ∈ cs, ∀ path depth, (collect resolver exclude incl dropped path depth c.2).Nodup) :
    (collectAll resolver exclude incl dropped path depth cs).Nodup := by
  induction cs with
  | nil => rw [collectAll]; exact List.nodup_nil
  | cons c cs ih =>
    obtain ⟨name, n⟩ := c
    simp only [List.map_cons, List.nodup_cons] at hcs
    rw [collectAll, List.nodup_append]
    refine ⟨?_, ih hcs.2 fun c hc => h c (List.mem_cons_of_mem _ hc), ?_⟩
    · split
      · exact List.nodup_nil
      · exact h (name, n) (by simp) _ _
    · intro f hf g hg hfg
      subst hfg
      split at hf
      · cases hf
      · have h1 := collect_prefix _ _ _ _ _ _ _ _ hf
        obtain ⟨c, hc1, _, hc2⟩ := (mem_collectAll ..).mp hg
        have h2 := collect_prefix _ _ _ _ _ _ _ _ hc2
        have h3 : path ++ [name] = path ++ [c.1] :=
          List.prefix_of_prefix_length_le h1 h2 (by simp) |>.eq_of_length (by simp)
        have h4 : name = c.1 := by simpa using h3
        exact hcs.1 (h4 ▸ List.mem_map.mpr ⟨c, hc1, rfl⟩)

theorem collect_nodup (n : Node) (hn : DistinctNames n) (path : Path) (depth : Nat) :
    (collect resolver exclude incl dropped path depth n).Nodup := by
  induction n using Node.ind generalizing path depth with
  | file =>
    rw [collect]
    simp only [visit]
    repeat' split
    all_goals simp
  | error => simp [collect, visit]
  | dir cs ih =>
    rw [collect, (visit_dir resolver exclude incl path depth cs).1, List.nil_append]
    split
    · refine collectAll_nodup _ _ _ _ _ _ _ (hn [] cs (.here _)) fun c hc path depth => ?_
      exact ih c hc (fun rel cs' hh => hn (c.1 :: rel) cs' (.child hc hh)) _ _
    · exact List.nodup_nil

/-- C17: no file is reported twice, unless it lies below two of the given paths. -/
theorem C17_no_duplicates (roots : List (Path × Node)) (result : List Found)
    (h : DiscoverFiles resolver exclude incl dropped roots result)
    (hnames : ∀ r ∈ roots, DistinctNames r.2)
    (hroots : roots.Pairwise fun a b => ¬ a.1 <+: b.1 ∧ ¬ b.1 <+: a.1) :
    result.Nodup := by
  rw [(discover_perm _ _ _ _ h).nodup_iff]
  clear h
  induction roots with
  | nil => simp
  | cons r roots ih =>
    rw [List.pairwise_cons] at hroots
    rw [List.flatMap_cons, List.nodup_append]
    refine ⟨collect_nodup _ _ _ _ _ (hnames r (by simp)) _ _,
      ih (fun r hr => hnames r (by simp [hr])) hroots.2, ?_⟩
    intro f hf g hg hfg
    subst hfg
    obtain ⟨r', hr', hg'⟩ := List.mem_flatMap.mp hg
    have h1 := collect_prefix _ _ _ _ _ _ _ _ hf
    have h2 := collect_prefix _ _ _ _ _ _ _ _ hg'
    have := hroots.1 r' hr'
    rcases Nat.le_total r.1.length r'.1.length with hle | hle
    · exact this.1 (List.prefix_of_prefix_length_le h1 h2 hle)
    · exact this.2 (List.prefix_of_prefix_length_le h2 h1 hle)

/-- C17: the number of times a file is reported depends neither on the number of threads nor on the
schedule. -/
theorem C17_schedule_irrelevant (roots : List (Path × Node)) (result result' : List Found)
    (h : DiscoverFiles resolver exclude incl dropped roots result)
    (h' : DiscoverFiles resolver exclude incl dropped roots result') : result.Perm result' :=
  (discover_perm _ _ _ _ h).trans (discover_perm _ _ _ _ h').symm

/-! ### Termination -/

mutual
/-- Number of entries at and below a node. -/
def Node.size : Node → Nat
  | .file => 1
  | .error => 1
  | .dir cs => 1 + sizeAll cs
def sizeAll : List (String × Node) → Nat
  | [] => 0
  | (_, n) :: rest => n.size + sizeAll rest
end

theorem sizeAll_eq (cs : List (String × Node)) : sizeAll cs = (cs.map fun c => c.2.size).sum := by
  induction cs with
  | nil => rfl
  | cons c cs ih => rw [sizeAll, ih]; rfl

def Walk.todo (w : Walk) : Nat := (w.pending.map fun e => e.node.size).sum

theorem below_size (e : Entry) :
    ((below dropped e).map fun e => e.node.size).sum < e.node.size := by
  obtain ⟨path, depth, node⟩ := e
  cases node with
  | file => simp [below, Node.size]
  | error => simp [below, Node.size]
  | dir cs =>
    simp only [below, Node.size, sizeAll_eq, List.map_map, Function.comp_def]
    have : ∀ (q : String × Node → Bool), ((cs.filter q).map fun c => c.2.size).sum ≤
        (cs.map fun c => c.2.size).sum := by
      intro q
      induction cs with
      | nil => simp
      | cons c cs ih =>
        by_cases hq : q c = true <;> simp [hq] <;> omega
    have := this fun c => !dropped (path ++ [c.1]) c.2.isDir
    omega

/-- C17: the walk ends, under every schedule: each step leaves less to do. -/
theorem C17_terminates {a b : Walk} (h : Step resolver exclude incl dropped a b) :
    b.todo < a.todo := by
  obtain ⟨before, after, e, left, right, own⟩ := h
  have h1 := below_size dropped e
  simp only [Walk.todo, List.map_append, List.sum_append, List.map_cons, List.sum_cons]
  split <;> simp <;> omega

theorem walk_finishes (k : Nat) (w : Walk) (hk : w.todo ≤ k) (ht : w.threads ≠ []) :
    ∃ final, Steps resolver exclude incl dropped w final ∧ final.pending = [] := by
  induction k generalizing w with
  | zero =>
    obtain ⟨pending, threads⟩ := w
    cases pending with
    | nil => exact ⟨_, .refl _, rfl⟩
    | cons e es =>
      have : 0 < e.node.size := by cases e.node <;> simp [Node.size] <;> omega
      simp [Walk.todo] at hk
      omega
  | succ k ih =>
    obtain ⟨pending, threads⟩ := w
    cases pending with
    | nil => exact ⟨_, .refl _, rfl⟩
    | cons e es =>
      cases threads with
      | nil => exact absurd rfl ht
      | cons t ts =>
        have hs := Step.mk (resolver := resolver) (exclude := exclude) (incl := incl)
          (dropped := dropped) [] es e [] ts t
        have hlt := C17_terminates _ _ _ _ hs
        have hto : ∀ w w' : Walk, Steps resolver exclude incl dropped w w' →
            ∀ v, Step resolver exclude incl dropped v w → Steps resolver exclude incl dropped v w' := by
          intro w w' h
          induction h with
          | refl => intro v hv; exact .tail (.refl _) hv
          | tail _ hs ih => intro v hv; exact .tail (ih v hv) hs
        obtain ⟨final, h1, h2⟩ := ih _ (Nat.le_of_lt_succ (Nat.lt_of_lt_of_le hlt hk)) (by simp)
        exact ⟨final, hto _ _ h1 _ hs, h2⟩

/-- C17: there is a result (so the statements above are not vacuous). -/
theorem C17_result_exists (roots : List (Path × Node)) :
    ∃ result, DiscoverFiles resolver exclude incl dropped roots result := by
  obtain ⟨final, h1, h2⟩ := walk_finishes resolver exclude incl dropped _
    ⟨roots.map fun r => ⟨r.1, 0, r.2⟩, List.replicate 1 []⟩ (Nat.le_refl _) (by simp)
  exact ⟨_, 1, final, _, h1, h2, .refl _, rfl⟩

end

/-! ### No panics -/

/-- An absolute path: the root followed by names. -/
def Absolute (p : Path) : Prop := ∃ names : List String, p = "/" :: names ∧ "/" ∉ names

theorem settingsIn_root {compile : Path → List String → Option FilePatterns}
    (hc : ∀ root patterns fp, compile root patterns = some fp → fp.root = root)
    {disk : Disk} {d : Path} {s : Settings} (h : SettingsIn compile disk d = some s)
    {fp : FilePatterns} (hfp : s.exclude = some fp) : fp.root = d := by
  have key : ∀ doc, Settings.load compile doc d = some s → fp.root = d := by
    intro doc hl
    unfold Settings.load at hl
    cases ho : Settings.deserialize doc with
    | none => rw [ho] at hl; cases hl
    | some o =>
      rw [ho] at hl
      simp only [Option.bind_some, Settings.intoSettings] at hl
      cases he : (o.getD {}).exclude with
      | none =>
        rw [he] at hl
        simp only [Option.map_some, Option.some.injEq] at hl
        subst hl
        cases hfp
      | some pats =>
        rw [he] at hl
        cases hcp : compile d pats with
        | none => simp [hcp] at hl
        | some fp' =>
          simp only [hcp, Option.map_some, Option.some.injEq] at hl
          subst hl
          simp only [Option.some.injEq] at hfp
          subst hfp
          exact hc _ _ _ hcp
  unfold SettingsIn at h
  split at h
  · cases hr : disk.readToml (d ++ ["air.toml"]) with
    | none => rw [hr] at h; cases h
    | some doc => rw [hr] at h; exact key doc h
  · cases hr : disk.readToml (d ++ [".air.toml"]) with
    | none => rw [hr] at h; cases h
    | some doc => rw [hr] at h; exact key doc h

/-- C17: with the settings found on disk, the check of a given path against the exclusions of its
settings does not panic. (The contract of the pattern compiler is that it keeps the root it is
given.) -/
theorem C17_no_panic (compile : Path → List String → Option FilePatterns)
    (hc : ∀ root patterns fp, compile root patterns = some fp → fp.root = root)
    (disk : Disk) (paths : List Path) (found : List (Path × Settings))
    (h : discoverSettings compile disk paths = some found) (path : Path) (hp : Absolute path)
    (isDir : Bool) :
    anyExcludeMatchedPathOrAnyParents path isDir
      (Resolver.resolveOrFallback (buildResolver found) path) ≠ none := by
  obtain ⟨hn, hf⟩ := (C16_discovered compile disk paths).2 found h
  obtain ⟨m, ⟨hs, hm⟩, hmf, hfb⟩ := buildResolver_rep hn
  unfold Resolver.resolveOrFallback
  cases hr : Resolver.resolve (buildResolver found) path with
  | none => rw [hfb]; simp [anyExcludeMatchedPathOrAnyParents, Settings.Settings.default]
  | some i =>
    obtain ⟨d, s⟩ := i
    obtain ⟨h1, h2, _⟩ := (Resolver.resolve_eq_some_iff _ hs ..).mp hr
    obtain ⟨⟨q, _, hq⟩, hsd⟩ := (hf d s).mp ((hmf d s).mp ((hm d s).mp h1))
    simp only [anyExcludeMatchedPathOrAnyParents]
    cases he : s.exclude with
    | none => simp
    | some fp =>
      have hroot := settingsIn_root hc hsd he
      simp only [FilePatterns.matchedPathOrAnyParents]
      by_cases hemp : fp.isEmpty = true
      · rw [if_pos hemp]; simp
      · rw [if_neg hemp]
        have : (fp.strip path).head? ≠ some "/" := by
          unfold FilePatterns.strip
          rw [hroot, if_pos (List.isPrefixOf_iff_prefix.mpr h2)]
          obtain ⟨names, rfl, hnames⟩ := hp
          obtain ⟨t, ht⟩ := h2
          cases d with
          | nil => exact absurd rfl hq.1
          | cons c d =>
            simp only [List.cons_append, List.cons.injEq] at ht
            obtain ⟨rfl, rfl⟩ := ht
            simp only [List.length_cons, List.drop_succ_cons, List.drop_left]
            intro hh
            cases t with
            | nil => cases hh
            | cons x t =>
              simp only [List.head?_cons, Option.some.injEq] at hh
              subst hh
              exact hnames (by simp)
        rw [if_neg this]
        simp

end Verif.Discovery
