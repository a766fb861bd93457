import Verif.Props.DiscoverFiles

/-!
# C49: naming a file and finding it below a directory
-/

namespace Verif.Discovery

open Verif.Resolver (Path Resolver Item)
open Verif.FilePatterns
open Verif.Settings (Settings Toml)

/-- The patterns contain no exception (`!pattern`). -/
def NoWhitelist (fp : FilePatterns) : Prop := ∀ path isDir, fp.matchedStripped path isDir ≠ .whitelist

theorem mem_relParents {q path : Path} : q ∈ relParents path ↔ q <+: path ∧ q ≠ path := by
  induction path generalizing q with
  | nil => simp [relParents]
  | cons c rest ih =>
    simp only [relParents, List.mem_append, List.mem_map, ih, List.mem_singleton]
    constructor
    · rintro (⟨a, ⟨h1, h2⟩, rfl⟩ | rfl)
      · exact ⟨by simpa [List.cons_prefix_cons] using h1, by simpa using h2⟩
      · simp
    · rintro ⟨h1, h2⟩
      cases q with
      | nil => exact .inr rfl
      | cons d q =>
        rw [List.cons_prefix_cons] at h1
        obtain ⟨rfl, h1⟩ := h1
        exact .inl ⟨q, ⟨h1, fun h => h2 (by rw [h])⟩, rfl⟩

theorem firstDecision_ignore {l : List Match} (h : ∀ m ∈ l, m ≠ .whitelist) :
    (firstDecision l).isIgnore = true ↔ .ignore ∈ l := by
  induction l with
  | nil => simp [firstDecision, Match.isIgnore]
  | cons m l ih =>
    have h' := ih fun m hm => h m (List.mem_cons_of_mem _ hm)
    cases m with
    | none => simpa [firstDecision] using h'
    | ignore => simp [firstDecision, Match.isIgnore]
    | whitelist => exact absurd rfl (h .whitelist (by simp))

theorem strip_append (fp : FilePatterns) (t : Path) : fp.strip (fp.root ++ t) = t := by
  unfold FilePatterns.strip
  rw [if_pos (List.isPrefixOf_iff_prefix.mpr (List.prefix_append _ _))]
  simp

/-- A path is rejected with its parents iff one of them, from the root of the patterns down, is
rejected. -/
theorem matched_parents_iff (fp : FilePatterns) (hw : NoWhitelist fp) (path : Path)
    (hr : fp.root <+: path) (habs : Absolute path) (hne : fp.root ≠ []) (isDir : Bool) :
    fp.matchedPathOrAnyParents path isDir = some true ↔
      ∃ q, fp.root <+: q ∧ q <+: path ∧ fp.matched q (isDir || decide (q ≠ path)) = true := by
  obtain ⟨t, rfl⟩ := hr
  have hhead : t.head? ≠ some "/" := by
    obtain ⟨names, hn, hnames⟩ := habs
    cases hroot : fp.root with
    | nil => exact absurd hroot hne
    | cons c d =>
      rw [hroot] at hn
      simp only [List.cons_append, List.cons.injEq] at hn
      obtain ⟨_, rfl⟩ := hn
      intro hh
      cases t with
      | nil => cases hh
      | cons x t =>
        simp only [List.head?_cons, Option.some.injEq] at hh
        subst hh
        exact hnames (by simp)
  simp only [FilePatterns.matchedPathOrAnyParents, FilePatterns.matched, strip_append]
  by_cases he : fp.isEmpty = true
  · simp [he, Match.isIgnore]
  · simp only [he, if_neg hhead]
    simp only [Bool.false_eq_true, if_false, Option.some.injEq]
    rw [firstDecision_ignore]
    · simp only [List.mem_cons, List.mem_map, mem_relParents]
      constructor
      · rintro (h | ⟨q, ⟨h1, h2⟩, h3⟩)
        · refine ⟨fp.root ++ t, List.prefix_append _ _, List.prefix_rfl, ?_⟩
          rw [strip_append]
          simp [← h, Match.isIgnore]
        · refine ⟨fp.root ++ q, List.prefix_append _ _, (List.prefix_append_right_inj _).mpr h1, ?_⟩
          rw [strip_append]
          simp [h2, h3, Match.isIgnore]
      · rintro ⟨q, ⟨u, rfl⟩, h1, h2⟩
        rw [strip_append] at h2
        have h1 := (List.prefix_append_right_inj _).mp h1
        have h3 : ∀ m : Match, m.isIgnore = true → m = .ignore := by
          intro m hm; cases m <;> simp [Match.isIgnore] at hm ⊢
        have h4 := h3 _ h2
        by_cases hu : u = t
        · subst hu
          simp only [ne_eq, not_true, decide_false, Bool.or_false] at h4
          exact .inl h4.symm
        · refine .inr ⟨u, ⟨h1, hu⟩, ?_⟩
          simpa [hu] using h4
    · intro m hm
      simp only [List.mem_cons, List.mem_map] at hm
      rcases hm with rfl | ⟨q, _, rfl⟩
      · exact hw _ _
      · exact hw _ _

theorem default_parents_iff (d : DefaultFilePatterns) (path : Path) (hne : path ≠ []) (isDir : Bool) :
    d.matchedPathOrAnyParents path isDir = true ↔
      ∃ q, q ≠ [] ∧ q <+: path ∧ d.matched q (isDir || decide (q ≠ path)) = true := by
  simp only [DefaultFilePatterns.matchedPathOrAnyParents, Bool.or_eq_true, List.any_eq_true,
    mem_ancestors_drop]
  constructor
  · rintro (h | ⟨q, ⟨h1, h2, h3⟩, h4⟩)
    · exact ⟨path, hne, List.prefix_rfl, by simpa using h⟩
    · exact ⟨q, h1, h2, by simpa [h3] using h4⟩
  · rintro ⟨q, h1, h2, h3⟩
    by_cases hq : q = path
    · subst hq; exact .inl (by simpa using h3)
    · exact .inr ⟨q, ⟨h1, h2, hq⟩, by simpa [hq] using h3⟩

/-- One of the exclusion rules applies to exactly this path. -/
def RuleApplies (s : Settings) (q : Path) (isDir : Bool) : Prop :=
  (∃ fp, s.exclude = some fp ∧ fp.root <+: q ∧ fp.matched q isDir = true) ∨
  (∃ d, s.defaultExclude = some d ∧ d.matched q isDir = true)

theorem root_excluded_iff (s : Settings) (path : Path) (habs : Absolute path) (isDir : Bool)
    (hs : ∀ fp, s.exclude = some fp → NoWhitelist fp ∧ fp.root <+: path ∧ fp.root ≠ []) :
    anyExcludeMatchedPathOrAnyParents path isDir s = some true ↔
      ∃ q, q ≠ [] ∧ q <+: path ∧ RuleApplies s q (isDir || decide (q ≠ path)) := by
  have hne : path ≠ [] := by obtain ⟨n, rfl, _⟩ := habs; simp
  have hdef : ∃ b : Bool,
      (b = true ↔ ∃ q, q ≠ [] ∧ q <+: path ∧
        ∃ d, s.defaultExclude = some d ∧ d.matched q (isDir || decide (q ≠ path)) = true) ∧
      (s.exclude = none → anyExcludeMatchedPathOrAnyParents path isDir s = some b) ∧
      (∀ fp, s.exclude = some fp → anyExcludeMatchedPathOrAnyParents path isDir s =
        (fp.matchedPathOrAnyParents path isDir).map fun x => x || b) := by
    cases hd : s.defaultExclude with
    | none =>
      exact ⟨false, by simp, fun h => by simp [anyExcludeMatchedPathOrAnyParents, hd, h],
        fun fp h => by simp [anyExcludeMatchedPathOrAnyParents, hd, h]⟩
    | some d =>
      refine ⟨d.matchedPathOrAnyParents path isDir, ?_,
        fun h => by simp [anyExcludeMatchedPathOrAnyParents, hd, h],
        fun fp h => by simp [anyExcludeMatchedPathOrAnyParents, hd, h]⟩
      simp only [default_parents_iff d path hne, Option.some.injEq]
      constructor
      · rintro ⟨q, h1, h2, h3⟩; exact ⟨q, h1, h2, d, rfl, h3⟩
      · rintro ⟨q, h1, h2, d, rfl, h3⟩; exact ⟨q, h1, h2, h3⟩
  obtain ⟨b, hdef, hnone, hsomefp⟩ := hdef
  simp only [RuleApplies]
  cases he : s.exclude with
  | none =>
    simp only [hnone he, Option.some.injEq, hdef]
    constructor
    · rintro ⟨q, h1, h2, h3⟩; exact ⟨q, h1, h2, .inr h3⟩
    · rintro ⟨q, h1, h2, ⟨fp, h, _⟩ | h3⟩
      · cases h
      · exact ⟨q, h1, h2, h3⟩
  | some fp =>
    obtain ⟨h1, h2, h3⟩ := hs fp he
    have hu := matched_parents_iff fp h1 path h2 habs h3 isDir
    have hsome : ∀ (o : Option Bool) (b : Bool), o ≠ none →
        ((o.map fun x => x || b) = some true ↔ o = some true ∨ b = true) := by
      intro o b ho
      cases o with
      | none => exact absurd rfl ho
      | some x => simp
    rw [hsomefp fp he, hsome]
    · rw [hdef, hu]
      constructor
      · rintro (⟨q, g1, g2, g3⟩ | ⟨q, g1, g2, g3⟩)
        · refine ⟨q, ?_, g2, .inl ⟨fp, rfl, g1, g3⟩⟩
          rintro rfl; exact h3 (List.prefix_nil.mp g1)
        · exact ⟨q, g1, g2, .inr g3⟩
      · rintro ⟨q, g1, g2, ⟨fp', h, g3, g4⟩ | g3⟩
        · cases h; exact .inl ⟨q, g3, g2, g4⟩
        · exact .inr ⟨q, g1, g2, g3⟩
    · simp only [FilePatterns.matchedPathOrAnyParents]
      split
      · simp
      · split
        · rename_i hh
          exfalso
          obtain ⟨t, rfl⟩ := h2
          rw [strip_append] at hh
          obtain ⟨names, hn, hnames⟩ := habs
          cases hroot : fp.root with
          | nil => exact absurd hroot h3
          | cons c d =>
            rw [hroot] at hn
            simp only [List.cons_append, List.cons.injEq] at hn
            obtain ⟨_, rfl⟩ := hn
            cases t with
            | nil => cases hh
            | cons x t =>
              simp only [List.head?_cons, Option.some.injEq] at hh
              subst hh
              exact hnames (by simp)
        · simp

/-- C49 (partial: needs exclusion patterns without `!`, see `C49_exception_differs`; one
configuration in effect for the whole directory, see `C49_nested_differs`; and the walker's own filters, i.e. hidden and
git-ignored files, out of play): a file is selected when found below a given directory exactly if
it is selected when named itself. -/
theorem C49_named_or_found_partial (resolver : Resolver Settings) (exclude : Exclude)
    (incl : Include) (root : Path) (n : Node) (rel : List String) (hrel : rel ≠ [])
    (hhas : Has n rel .file) (habs : Absolute (root ++ rel)) (hroot : root ≠ [])
    (s : Settings)
    (hone : ∀ q, root <+: q → q <+: root ++ rel → Resolver.resolveOrFallback resolver q = s)
    (hs : ∀ fp, s.exclude = some fp → NoWhitelist fp ∧ fp.root <+: root ∧ fp.root ≠ [])
    (found named : List Found)
    (hfound : DiscoverFiles resolver exclude incl (fun _ _ => false) [(root, n)] found)
    (hnamed : DiscoverFiles resolver exclude incl (fun _ _ => false) [(root ++ rel, .file)] named) :
    Found.file (root ++ rel) ∈ found ↔ Found.file (root ++ rel) ∈ named := by
  have habsr : Absolute root := by
    obtain ⟨names, h1, h2⟩ := habs
    cases root with
    | nil => exact absurd rfl hroot
    | cons c r =>
      simp only [List.cons_append, List.cons.injEq] at h1
      obtain ⟨rfl, rfl⟩ := h1
      exact ⟨r, rfl, fun h => h2 (by simp [h])⟩
  have hpre : root <+: root ++ rel := List.prefix_append _ _
  have happ : ∀ q d, root <+: q → (anyExcludeMatchedPath q d s = true ↔ RuleApplies s q d) := by
    intro q d hq
    simp only [anyExcludeMatchedPath, RuleApplies, Bool.or_eq_true]
    cases he : s.exclude with
    | none => cases hd : s.defaultExclude <;> simp
    | some fp =>
      have := (hs fp he).2.1.trans hq
      cases hd : s.defaultExclude <;> simp [this]
  rw [C17_selected _ _ _ _ _ _ hfound, C17_selected _ _ _ _ _ _ hnamed]
  have hleft : (∃ r m rel', (r, m) ∈ [(root, n)] ∧ Has m rel' .file ∧ root ++ rel = r ++ rel' ∧
        ¬ RootExcluded resolver exclude r (!rel'.isEmpty) ∧
        PathClear resolver exclude (fun _ _ => false) r rel' ∧
        Included resolver incl (root ++ rel)) ↔
      ¬ RootExcluded resolver exclude root true ∧
        PathClear resolver exclude (fun _ _ => false) root rel ∧
        Included resolver incl (root ++ rel) := by
    have hb : (!rel.isEmpty) = true := by cases rel with
      | nil => exact absurd rfl hrel
      | cons => rfl
    constructor
    · rintro ⟨r, m, rel', h1, h2, h3, h4, h5, h6⟩
      simp only [List.mem_singleton, Prod.mk.injEq] at h1
      obtain ⟨rfl, rfl⟩ := h1
      have := List.append_cancel_left h3
      subst this
      exact ⟨by rwa [hb] at h4, h5, h6⟩
    · rintro ⟨h4, h5, h6⟩
      exact ⟨root, n, rel, by simp, hhas, rfl, by rwa [hb], h5, h6⟩
  have hright : (∃ r m rel', (r, m) ∈ [(root ++ rel, Node.file)] ∧ Has m rel' .file ∧
        root ++ rel = r ++ rel' ∧
        ¬ RootExcluded resolver exclude r (!rel'.isEmpty) ∧
        PathClear resolver exclude (fun _ _ => false) r rel' ∧
        Included resolver incl (root ++ rel)) ↔
      ¬ RootExcluded resolver exclude (root ++ rel) false ∧
        Included resolver incl (root ++ rel) := by
    constructor
    · rintro ⟨r, m, rel', h1, h2, h3, h4, h5, h6⟩
      simp only [List.mem_singleton, Prod.mk.injEq] at h1
      obtain ⟨rfl, rfl⟩ := h1
      have := (has_leaf rfl h2).1
      subst this
      exact ⟨h4, h6⟩
    · rintro ⟨h4, h6⟩
      exact ⟨root ++ rel, .file, [], by simp, .here _, by simp, h4, by intro b nm a h; simp at h, h6⟩
  rw [hleft, hright, ← and_assoc]
  refine and_congr_left fun _ => ?_
  unfold RootExcluded PathClear PathExcluded
  rw [hone root List.prefix_rfl hpre, hone (root ++ rel) hpre List.prefix_rfl]
  rw [root_excluded_iff s root habsr true fun fp h => hs fp h]
  rw [root_excluded_iff s (root ++ rel) habs false
    fun fp h => ⟨(hs fp h).1, (hs fp h).2.1.trans hpre, (hs fp h).2.2⟩]
  by_cases hex : exclude = .matched
  · simp only [hex, true_and, Bool.true_or, Bool.false_or]
    constructor
    · rintro ⟨h1, h2⟩ ⟨q, g1, g2, g3⟩
      rcases Nat.lt_or_ge root.length q.length with hlt | hle
      · -- strictly below the root
        obtain ⟨t, rfl⟩ := List.prefix_of_prefix_length_le hpre g2 (by omega)
        have g2' := (List.prefix_append_right_inj _).mp g2
        obtain ⟨aft, rfl⟩ := g2'
        rcases path_cases t with rfl | ⟨before, name, rfl⟩
        · simp at hlt
        · have h3 := h2 before name aft (by simp)
          rw [hone _ (by simp [List.append_assoc]) (by simpa [List.append_assoc] using g2)] at h3
          rw [happ _ _ (by simp [List.append_assoc])] at h3
          apply h3
          have : decide (root ++ (before ++ [name]) ≠ root ++ (before ++ [name] ++ aft)) =
              !aft.isEmpty := by
            cases aft <;> simp
          rw [this] at g3
          simpa [List.append_assoc] using g3
      · have g4 : q <+: root := List.prefix_of_prefix_length_le g2 hpre hle
        refine h1 ⟨q, g1, g4, ?_⟩
        have : q ≠ root ++ rel := by
          rintro rfl
          simp only [List.length_append] at hle
          exact hrel (List.length_eq_zero_iff.mp (by omega))
        simpa [this] using g3
    · intro h
      refine ⟨?_, ?_⟩
      · rintro ⟨q, g1, g2, g3⟩
        refine h ⟨q, g1, g2.trans hpre, ?_⟩
        have : q ≠ root ++ rel := by
          rintro rfl
          have := g2.length_le
          simp only [List.length_append] at this
          exact hrel (List.length_eq_zero_iff.mp (by omega))
        simpa [this] using g3
      · rintro before name aft rfl
        refine fun hp => h ⟨root ++ before ++ [name], by simp, ?_, ?_⟩
        · exact ⟨aft, by simp⟩
        · rw [hone _ (by simp [List.append_assoc]) ⟨aft, by simp⟩] at hp
          rw [happ _ _ (by simp [List.append_assoc])] at hp
          have : decide (root ++ before ++ [name] ≠ root ++ (before ++ name :: aft)) =
              !aft.isEmpty := by
            cases aft <;> simp
          rw [this]; exact hp
  · simp [hex]

/-! ## Examples -/

/-- The patterns `exclude = ["sub/", "!a.R"]` of a configuration in `/p`. -/
def exPatterns : FilePatterns where
  root := ["/", "p"]
  isEmpty := false
  matchedStripped path isDir :=
    if path.getLast? = some "a.R" then .whitelist
    else if path.getLast? = some "sub" ∧ isDir = true then .ignore
    else .none

def exSettings : Settings := { Settings.Settings.default with exclude := some exPatterns }

def exResolver : Resolver Settings :=
  (Resolver.add (Resolver.new Settings.Settings.default) ["/", "p"] exSettings).1

def exTree : Node :=
  .dir [("sub", .dir [("a.R", .file)]), ("b.R", .file), ("renv", .dir [("activate.R", .file)]),
    ("notes.md", .file), ("locked", .error)]

/-- C49 is false if an exception is below an excluded directory: named, `/p/sub/a.R` is selected;
found below `/p`, it is not. -/
theorem C49_exception_differs :
    (∃ named, DiscoverFiles exResolver .matched .matched (fun _ _ => false)
      [(["/", "p", "sub", "a.R"], .file)] named ∧ Found.file ["/", "p", "sub", "a.R"] ∈ named) ∧
    Has exTree ["sub", "a.R"] .file ∧
    ∀ found, DiscoverFiles exResolver .matched .matched (fun _ _ => false)
      [(["/", "p"], exTree)] found → Found.file ["/", "p", "sub", "a.R"] ∉ found := by
  refine ⟨?_, .child (n := .dir [("a.R", .file)]) (by simp) (.child (n := .file) (by simp) (.here _)), ?_⟩
  · obtain ⟨named, h⟩ := C17_result_exists exResolver .matched .matched (fun _ _ => false)
      [(["/", "p", "sub", "a.R"], .file)]
    refine ⟨named, h, (C17_selected _ _ _ _ _ _ h _).mpr ⟨_, _, [], List.mem_singleton.mpr rfl,
      .here _, rfl, ?_, by intro b n a h; simp at h, .inr (by decide +kernel)⟩⟩
    rintro ⟨_, h⟩
    exact absurd h (by decide +kernel)
  · intro found h hm
    obtain ⟨root, n, rel, h1, h2, h3, h4, h5, h6⟩ := (C17_selected _ _ _ _ _ _ h _).mp hm
    simp only [List.mem_singleton, Prod.mk.injEq] at h1
    obtain ⟨rfl, rfl⟩ := h1
    simp only [List.cons_append, List.nil_append, List.cons.injEq, true_and] at h3
    exact (h5 [] "sub" ["a.R"] h3.symm).2 ⟨rfl, by decide +kernel⟩

/-- The whole selection in the example. -/
example (found : List Found) (h : DiscoverFiles exResolver .matched .matched (fun _ _ => false)
    [(["/", "p"], exTree)] found) :
    found.Perm [.file ["/", "p", "b.R"], .error ["/", "p", "locked"]] := by
  refine (discover_perm _ _ _ _ h).trans ?_
  have hb : ∀ q d, (q = ["/", "p", "sub"] ∨ q = ["/", "p", "renv"] ∨ q = ["/", "p", "b.R"] ∨
      q = ["/", "p", "notes.md"]) →
      anyExcludeMatchedPath q d (Resolver.resolveOrFallback exResolver q) =
        (d && (q == ["/", "p", "sub"] || q == ["/", "p", "renv"])) := by
    rintro q d (rfl | rfl | rfl | rfl) <;> cases d <;> decide +kernel
  have h0 : anyExcludeMatchedPathOrAnyParents ["/", "p"] true
      (Resolver.resolveOrFallback exResolver ["/", "p"]) = some false := by decide +kernel
  have h1 : anyIncludeMatchedPath ["/", "p", "b.R"]
      (Resolver.resolveOrFallback exResolver ["/", "p", "b.R"]) = true := by decide +kernel
  have h2 : anyIncludeMatchedPath ["/", "p", "notes.md"]
      (Resolver.resolveOrFallback exResolver ["/", "p", "notes.md"]) = false := by decide +kernel
  simp [exTree, collect, collectAll, visit, Node.isDir, h0, hb, h1, h2]

/-- The patterns `exclude = ["sub/"]`. -/
def exPatterns' : FilePatterns where
  root := ["/", "p"]
  isEmpty := false
  matchedStripped path isDir :=
    if path.getLast? = some "sub" ∧ isDir = true then .ignore else .none

/-- A case meeting the hypotheses of `C49_named_or_found_partial`. -/
example : NoWhitelist exPatterns' ∧
    Absolute (["/", "p"] ++ ["sub", "a.R"]) ∧ Has exTree ["sub", "a.R"] .file := by
  refine ⟨?_, ⟨["p", "sub", "a.R"], rfl, by decide⟩,
    .child (n := .dir [("a.R", .file)]) (by simp) (.child (n := .file) (by simp) (.here _))⟩
  intro path isDir h
  simp only [exPatterns'] at h
  split at h <;> cases h

/-- `/p/air.toml` excludes `sub/`; `/p/sub/deep/air.toml` excludes nothing. -/
def nestedResolver : Resolver Settings :=
  (Resolver.add (Resolver.add (Resolver.new Settings.Settings.default) ["/", "p"]
    { Settings.Settings.default with exclude := some exPatterns' }).1 ["/", "p", "sub", "deep"]
    Settings.Settings.default).1

def nestedTree : Node := .dir [("sub", .dir [("deep", .dir [("a.R", .file)])]), ("b.R", .file)]

/-- C49 is false with nested configurations, even without exceptions: the file is excluded by a configuration that does not
apply to it when it is named. -/
theorem C49_nested_differs :
    (∃ named, DiscoverFiles nestedResolver .matched .matched (fun _ _ => false)
      [(["/", "p", "sub", "deep", "a.R"], .file)] named ∧ Found.file ["/", "p", "sub", "deep", "a.R"] ∈ named) ∧
    Has nestedTree ["sub", "deep", "a.R"] .file ∧
    ∀ found, DiscoverFiles nestedResolver .matched .matched (fun _ _ => false)
      [(["/", "p"], nestedTree)] found → Found.file ["/", "p", "sub", "deep", "a.R"] ∉ found := by
  refine ⟨?_, .child (n := .dir [("deep", .dir [("a.R", .file)])]) (by simp)
    (.child (n := .dir [("a.R", .file)]) (by simp) (.child (n := .file) (by simp) (.here _))), ?_⟩
  · obtain ⟨named, h⟩ := C17_result_exists nestedResolver .matched .matched (fun _ _ => false)
      [(["/", "p", "sub", "deep", "a.R"], .file)]
    refine ⟨named, h, (C17_selected _ _ _ _ _ _ h _).mpr ⟨_, _, [], List.mem_singleton.mpr rfl,
      .here _, rfl, ?_, by intro b n a h; simp at h, .inr (by decide +kernel)⟩⟩
    rintro ⟨_, h⟩
    exact absurd h (by decide +kernel)
  · intro found h hm
    obtain ⟨root, n, rel, h1, h2, h3, h4, h5, h6⟩ := (C17_selected _ _ _ _ _ _ h _).mp hm
    simp only [List.mem_singleton, Prod.mk.injEq] at h1
    obtain ⟨rfl, rfl⟩ := h1
    simp only [List.cons_append, List.nil_append, List.cons.injEq, true_and] at h3
    exact (h5 [] "sub" ["deep", "a.R"] h3.symm).2 ⟨rfl, by decide +kernel⟩

end Verif.Discovery
