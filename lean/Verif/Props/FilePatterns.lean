import Verif.Model.FilePatterns

/-!
# C46: which files the built-in include and exclude patterns select
-/

namespace Verif.FilePatterns

open Verif.Resolver (Path)

/-! ## Glob matching -/

theorem mem_suffixes {α : Type} {s cs : List α} : s ∈ suffixes cs ↔ ∃ a, cs = a ++ s := by
  induction cs with
  | nil => simp [suffixes]
  | cons c cs ih =>
    simp only [suffixes, List.mem_cons, ih]
    constructor
    · rintro (rfl | ⟨a, rfl⟩)
      · exact ⟨[], rfl⟩
      · exact ⟨c :: a, rfl⟩
    · rintro ⟨a, h⟩
      cases a with
      | nil => exact .inl h.symm
      | cons x a => simp at h; exact .inr ⟨a, h.2⟩

theorem matchGlob_star {ts : List Tok} {cs : List Char} :
    matchGlob (.star :: ts) cs = true ↔
      ∃ a b, cs = a ++ b ∧ '/' ∉ a ∧ matchGlob ts b = true := by
  simp only [matchGlob, List.any_eq_true, mem_suffixes, Bool.and_eq_true, Bool.not_eq_true']
  constructor
  · rintro ⟨s, ⟨a, rfl⟩, h1, h2⟩
    refine ⟨a, s, rfl, ?_, h2⟩
    simpa using h1
  · rintro ⟨a, b, rfl, h1, h2⟩
    exact ⟨b, ⟨a, rfl⟩, by simpa using h1, h2⟩

/-- A literal glob matches exactly its text. -/
theorem matchGlob_lits {text cs : List Char} :
    matchGlob (text.map .lit) cs = true ↔ cs = text := by
  induction text generalizing cs with
  | nil => cases cs <;> simp [matchGlob]
  | cons c text ih =>
    cases cs with
    | nil => simp [matchGlob]
    | cons d ds =>
      simp only [List.map_cons, matchGlob, Bool.and_eq_true, beq_iff_eq, ih, List.cons.injEq]
      exact ⟨fun h => ⟨h.1.symm, h.2⟩, fun h => ⟨h.1.symm, h.2⟩⟩

theorem matchGlob_lits_append {text cs : List Char} {ts : List Tok} :
    matchGlob (text.map .lit ++ ts) cs = true ↔ ∃ b, cs = text ++ b ∧ matchGlob ts b = true := by
  induction text generalizing cs with
  | nil => simp
  | cons c text ih =>
    cases cs with
    | nil => simp [matchGlob]
    | cons d ds =>
      simp only [List.map_cons, List.cons_append, matchGlob, Bool.and_eq_true, beq_iff_eq, ih,
        List.cons.injEq]
      constructor
      · rintro ⟨rfl, b, rfl, h⟩; exact ⟨b, ⟨rfl, rfl⟩, h⟩
      · rintro ⟨b, ⟨rfl, rfl⟩, h⟩; exact ⟨rfl, b, rfl, h⟩

/-! ## The default include pattern -/

/-- The file name ends with a dot and the given extension. -/
def HasExtension (name : String) (ext : List Char) : Prop :=
  ∃ stem, '/' ∉ stem ∧ name.toList = stem ++ '.' :: ext

theorem include_iff (path : Path) (name : String) (isDir : Bool) :
    defaultInclude.matched (path ++ [name]) isDir = true ↔
      HasExtension name ['R'] ∨ HasExtension name ['r'] ∨ HasExtension name [','] := by
  have h1 : defaultInclude = [⟨false, [.star, .lit '.', .cls ['R', ',', 'r']]⟩] := by decide +kernel
  rw [h1]
  simp only [DefaultFilePatterns.matched, List.any_cons, List.any_nil, Bool.or_false,
    DefaultGlob.matches, List.getLast?_append, List.getLast?_singleton, Option.some_or, Bool.not_false,
    Bool.true_or, Bool.true_and, matchGlob_star, HasExtension]
  constructor
  · rintro ⟨a, b, hab, ha, hm⟩
    cases b with
    | nil => simp [matchGlob] at hm
    | cons d ds =>
      cases ds with
      | nil => simp [matchGlob] at hm
      | cons e es =>
        simp only [matchGlob, Bool.and_eq_true, beq_iff_eq, List.contains_eq_mem,
          List.isEmpty_iff, bne_iff_ne, ne_eq, decide_eq_true_eq, List.mem_cons, List.not_mem_nil,
          or_false] at hm
        obtain ⟨rfl, ⟨_, hm⟩, rfl⟩ := hm
        rcases hm with rfl | rfl | rfl
        · exact .inl ⟨a, ha, hab⟩
        · exact .inr (.inr ⟨a, ha, hab⟩)
        · exact .inr (.inl ⟨a, ha, hab⟩)
  · rintro (⟨a, ha, hab⟩ | ⟨a, ha, hab⟩ | ⟨a, ha, hab⟩)
    · exact ⟨a, _, hab, ha, by decide⟩
    · exact ⟨a, _, hab, ha, by decide⟩
    · exact ⟨a, _, hab, ha, by decide⟩

/-- C46 is false as documented: a file with the extension `,` is treated as an R file, because the
pattern `*.[R,r]` lists the comma as a third extension. -/
theorem C46_comma_extension_included :
    defaultInclude.matched ["/", "data", "notes.,"] false = true ∧
      ¬ (HasExtension "notes.," ['R'] ∨ HasExtension "notes.," ['r']) := by
  refine ⟨by decide +kernel, ?_⟩
  have hl : ("notes.,".toList).getLast? = some ',' := by decide
  rintro (⟨a, _, h⟩ | ⟨a, _, h⟩)
  · rw [h] at hl; simp at hl
  · rw [h] at hl; simp at hl

/-- C46, include: apart from names ending in `.,`, a file is included by default exactly if its
extension is `R` or `r`. -/
theorem C46_default_include_partial (path : Path) (name : String) (isDir : Bool)
    (h : ¬ HasExtension name [',']) :
    defaultInclude.matched (path ++ [name]) isDir = true ↔
      HasExtension name ['R'] ∨ HasExtension name ['r'] := by
  rw [include_iff]
  simp [h]

example : ¬ HasExtension "script.R" [','] ∧ HasExtension "script.R" ['R'] ∧
    defaultInclude.matched (["/", "a"] ++ ["script.R"]) false = true ∧
    defaultInclude.matched (["/", "a"] ++ ["script.Rmd"]) false = false := by
  refine ⟨?_, ⟨"script".toList, by decide, by decide⟩, by decide +kernel, by decide +kernel⟩
  rintro ⟨a, _, h⟩
  have hl : ("script.R".toList).getLast? = some 'R' := by decide
  rw [h] at hl; simp at hl

/-! ## The default exclude patterns -/

/-- The documented names of excluded directories. -/
def ExcludedDirectory (name : String) : Prop := name = ".git" ∨ name = "renv" ∨ name = "revdep"

/-- The documented names of excluded files. -/
def ExcludedFile (name : String) : Prop :=
  name = "cpp11.R" ∨ name = "RcppExports.R" ∨ name = "extendr-wrappers.R" ∨
    ∃ x, '/' ∉ x ∧ name.toList = "import-standalone-".toList ++ (x ++ ".R".toList)

theorem toList_eq {name : String} {s : String} : name.toList = s.toList ↔ name = s :=
  ⟨fun h => String.ext h, fun h => by rw [h]⟩

theorem exclude_iff (path : Path) (name : String) (isDir : Bool) :
    defaultExclude.matched (path ++ [name]) isDir = true ↔
      (isDir = true ∧ ExcludedDirectory name) ∨ ExcludedFile name := by
  have h1 : defaultExclude =
      [⟨true, ".git".toList.map .lit⟩, ⟨true, "renv".toList.map .lit⟩, ⟨true, "revdep".toList.map .lit⟩,
       ⟨false, "cpp11.R".toList.map .lit⟩, ⟨false, "RcppExports.R".toList.map .lit⟩,
       ⟨false, "extendr-wrappers.R".toList.map .lit⟩,
       ⟨false, "import-standalone-".toList.map .lit ++ (.star :: ".R".toList.map .lit)⟩] := by
    decide +kernel
  rw [h1]
  simp only [DefaultFilePatterns.matched, List.any_cons, List.any_nil, Bool.or_false,
    DefaultGlob.matches, List.getLast?_append, List.getLast?_singleton, Option.some_or, Bool.not_false,
    Bool.true_or, Bool.true_and, Bool.not_true, Bool.false_or, Bool.or_eq_true, Bool.and_eq_true,
    matchGlob_lits_append, matchGlob_star, matchGlob_lits, toList_eq, ExcludedDirectory, ExcludedFile]
  constructor
  · rintro (h | h | h | h | h | h | h)
    · exact .inl ⟨h.1, .inl h.2⟩
    · exact .inl ⟨h.1, .inr (.inl h.2)⟩
    · exact .inl ⟨h.1, .inr (.inr h.2)⟩
    · exact .inr (.inl h)
    · exact .inr (.inr (.inl h))
    · exact .inr (.inr (.inr (.inl h)))
    · obtain ⟨_, hb, a, _, rfl, ha, rfl⟩ := h
      exact .inr (.inr (.inr (.inr ⟨a, ha, hb⟩)))
  · rintro (⟨h, h' | h' | h'⟩ | h | h | h | ⟨x, hx, h⟩)
    · exact .inl ⟨h, h'⟩
    · exact .inr (.inl ⟨h, h'⟩)
    · exact .inr (.inr (.inl ⟨h, h'⟩))
    · exact .inr (.inr (.inr (.inl h)))
    · exact .inr (.inr (.inr (.inr (.inl h))))
    · exact .inr (.inr (.inr (.inr (.inr (.inl h)))))
    · exact .inr (.inr (.inr (.inr (.inr (.inr ⟨_, h, x, _, rfl, hx, rfl⟩)))))

theorem mem_ancestors {q path : Path} : q ∈ ancestors path ↔ q ≠ [] ∧ q <+: path := by
  induction path generalizing q with
  | nil => simp [ancestors]
  | cons c rest ih =>
    simp only [ancestors, List.mem_append, List.mem_map, ih, List.mem_singleton]
    cases q with
    | nil => simp
    | cons d q =>
      simp only [List.cons.injEq, ne_eq, reduceCtorEq, not_false_eq_true, true_and,
        List.cons_prefix_cons]
      constructor
      · rintro (⟨a, ⟨h1, h2⟩, rfl, rfl⟩ | ⟨rfl, rfl⟩)
        · exact ⟨rfl, h2⟩
        · exact ⟨rfl, List.nil_prefix⟩
      · rintro ⟨rfl, h⟩
        cases q with
        | nil => exact .inr ⟨rfl, rfl⟩
        | cons e q => exact .inl ⟨e :: q, ⟨by simp, h⟩, rfl, rfl⟩

theorem ancestors_cons_head (c : String) (rest : Path) :
    ∃ tl, ancestors (c :: rest) = (c :: rest) :: tl := by
  induction rest generalizing c with
  | nil => exact ⟨[], rfl⟩
  | cons d rest ih =>
    obtain ⟨tl, h⟩ := ih d
    exact ⟨tl.map (c :: ·) ++ [[c]], by rw [ancestors, h]; simp⟩

theorem ancestors_length_le {q path : Path} (h : q ∈ ancestors path) : q.length ≤ path.length :=
  (mem_ancestors.mp h).2.length_le

theorem ancestors_pairwise (path : Path) :
    (ancestors path).Pairwise fun a b => b.length < a.length := by
  induction path with
  | nil => simp [ancestors]
  | cons c rest ih =>
    simp only [ancestors]
    rw [List.pairwise_append]
    refine ⟨?_, by simp, ?_⟩
    · rw [List.pairwise_map]
      exact ih.imp (by intro a b h; simpa using h)
    · intro a ha b hb
      simp only [List.mem_map] at ha
      obtain ⟨a', ha', rfl⟩ := ha
      simp only [List.mem_singleton] at hb
      subst hb
      have := (mem_ancestors.mp ha').1
      cases a' with
      | nil => exact absurd rfl this
      | cons x y => simp

/-- The proper ancestors. -/
theorem mem_ancestors_drop {q path : Path} :
    q ∈ (ancestors path).drop 1 ↔ q ≠ [] ∧ q <+: path ∧ q ≠ path := by
  cases path with
  | nil => simp [ancestors]
  | cons c rest =>
    obtain ⟨tl, h⟩ := ancestors_cons_head c rest
    have hp := ancestors_pairwise (c :: rest)
    have hm := @mem_ancestors q (c :: rest)
    rw [h] at hp hm ⊢
    rw [List.pairwise_cons] at hp
    simp only [List.drop_succ_cons, List.drop_zero]
    constructor
    · intro hq
      have := hm.mp (List.mem_cons_of_mem _ hq)
      refine ⟨this.1, this.2, ?_⟩
      rintro rfl
      have := hp.1 _ hq
      omega
    · rintro ⟨h1, h2, h3⟩
      rcases List.mem_cons.mp (hm.mpr ⟨h1, h2⟩) with h | h
      · exact absurd h h3
      · exact h

/-- C46, exclude: with the default patterns a path is refused exactly if it is (named like) a documented
excluded file, or one of its parent directories is, or it lies in (or is itself, for a directory)
a directory with one of the documented names. -/
theorem C46_default_exclude (path : Path) (isDir : Bool) (hne : path ≠ []) :
    defaultExclude.matchedPathOrAnyParents path isDir = true ↔
      ∃ dir name, dir ++ [name] <+: path ∧
        (ExcludedFile name ∨ ExcludedDirectory name ∧ (isDir = true ∨ dir ++ [name] ≠ path)) := by
  simp only [DefaultFilePatterns.matchedPathOrAnyParents, Bool.or_eq_true, List.any_eq_true,
    mem_ancestors_drop]
  constructor
  · rintro (h | ⟨q, ⟨h1, h2, h3⟩, h⟩)
    · rw [← List.dropLast_concat_getLast hne, exclude_iff] at h
      refine ⟨path.dropLast, path.getLast hne, ?_, ?_⟩
      · rw [List.dropLast_concat_getLast]; exact List.prefix_refl _
      · rcases h with ⟨h, h'⟩ | h
        · exact .inr ⟨h', .inl h⟩
        · exact .inl h
    · rw [← List.dropLast_concat_getLast h1, exclude_iff] at h
      refine ⟨q.dropLast, q.getLast h1, ?_, ?_⟩
      · rw [List.dropLast_concat_getLast]; exact h2
      · rw [List.dropLast_concat_getLast]
        rcases h with ⟨h, h'⟩ | h
        · exact .inr ⟨h', .inr h3⟩
        · exact .inl h
  · rintro ⟨dir, name, hpre, h⟩
    by_cases he : dir ++ [name] = path
    · left
      rw [← he, exclude_iff]
      rcases h with h | ⟨h, h' | h'⟩
      · exact .inr h
      · exact .inl ⟨h', h⟩
      · exact absurd he h'
    · right
      refine ⟨dir ++ [name], ⟨by simp, hpre, he⟩, ?_⟩
      rw [exclude_iff]
      rcases h with h | ⟨h, _⟩
      · exact .inr h
      · exact .inl ⟨rfl, h⟩

example : defaultExclude.matchedPathOrAnyParents ["/", "p", "renv", "activate.R"] false = true ∧
    defaultExclude.matchedPathOrAnyParents ["/", "p", "renv"] false = false ∧
    defaultExclude.matchedPathOrAnyParents ["/", "p", "import-standalone-obj-type.R"] false = true ∧
    defaultExclude.matchedPathOrAnyParents ["/", "p", "R", "cpp11-utils.R"] false = false := by
  decide +kernel

end Verif.FilePatterns
