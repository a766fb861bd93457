import Verif.Model.Cli
import Verif.Props.DiscoverFiles

/-!
# C18-C21, C48: the `air format` command
-/

namespace Verif.Cli

open Verif.Resolver (Path Resolver)
open Verif.Discovery
open Verif.Settings (Settings Toml)

/-! ## Specification -/

/-- The file can be read and formatted (with its settings), giving `new`. -/
def Formats (fmt : Formatter) (resolver : Resolver Settings) (w : World) (p : Path) (new : String) :
    Prop :=
  ∃ old, w p = some old ∧ fmt (Resolver.resolveOrFallback resolver p) old = some new

/-- Formatting the file would change it. -/
def NeedsChange (fmt : Formatter) (resolver : Resolver Settings) (w : World) (p : Path) : Prop :=
  ∃ new, Formats fmt resolver w p new ∧ w p ≠ some new

/-- The discovered item cannot be processed: an error of the walker, an unreadable file, or a file
that cannot be formatted (e.g. a syntax error). -/
def Bad (fmt : Formatter) (resolver : Resolver Settings) (w : World) : Found → Prop
  | .error _ => True
  | .file p => ∀ new, ¬ Formats fmt resolver w p new

/-- No file is discovered twice. -/
def DistinctFiles (found : List Found) : Prop :=
  found.Pairwise fun a b => ∀ p, a = .file p → b ≠ .file p

/-- Formatting formatted text changes nothing. -/
def Idempotent (fmt : Formatter) : Prop :=
  ∀ s a b, fmt s a = some b → fmt s b = some b

/-! ## Lemmas -/

section
variable (fmt : Formatter) (outcome : Path → WriteOutcome) (resolver : Resolver Settings)

theorem formatSource_eq (s : Settings) (old : String) :
    formatSource fmt s old = (fmt s old).map fun new =>
      if old = new then .unchanged else .changed new := by
  unfold formatSource
  congr 1
  funext new
  by_cases h : old = new
  · simp [h]
  · simp [h]

theorem formatPath_changed {w : World} {p : Path} {new : String} :
    formatPath fmt w p (Resolver.resolveOrFallback resolver p) = some (.changed new) ↔
      Formats fmt resolver w p new ∧ w p ≠ some new := by
  unfold formatPath Formats
  cases hw : w p with
  | none => simp
  | some old =>
    simp only [Option.bind_some, formatSource_eq]
    cases hf : fmt (Resolver.resolveOrFallback resolver p) old with
    | none => simp [hf]
    | some new' =>
      simp only [Option.map_some, Option.some.injEq]
      by_cases h : old = new'
      · simp only [h, if_true]
        constructor
        · intro h; cases h
        · rintro ⟨⟨o, rfl, h2⟩, h3⟩
          rw [← h] at h2
          rw [hf] at h2; cases h2
          exact absurd rfl h3
      · rw [if_neg h]
        constructor
        · intro h'; cases h'; exact ⟨⟨old, rfl, hf⟩, by simpa using h⟩
        · rintro ⟨⟨o, rfl, h2⟩, h3⟩
          rw [hf] at h2; cases h2; rfl

theorem formatPath_none {w : World} {p : Path} :
    formatPath fmt w p (Resolver.resolveOrFallback resolver p) = none ↔
      Bad fmt resolver w (.file p) := by
  unfold formatPath Bad Formats
  cases hw : w p with
  | none => simp [hw]
  | some old =>
    simp only [Option.bind_some, formatSource_eq]
    cases hf : fmt (Resolver.resolveOrFallback resolver p) old with
    | none => simp [hw, hf]
    | some new' => simp [hw, hf]

theorem formatPath_unchanged {w : World} {p : Path} :
    formatPath fmt w p (Resolver.resolveOrFallback resolver p) = some .unchanged ↔
      ∃ t, w p = some t ∧ Formats fmt resolver w p t := by
  unfold formatPath Formats
  cases hw : w p with
  | none => simp
  | some old =>
    simp only [Option.bind_some, formatSource_eq]
    cases hf : fmt (Resolver.resolveOrFallback resolver p) old with
    | none =>
      simp only [Option.map_none]
      constructor
      · intro h; cases h
      · rintro ⟨t, h1, o, h2, h3⟩
        cases h2; rw [hf] at h3; cases h3
    | some new' =>
      simp only [Option.map_some, Option.some.injEq]
      by_cases h : old = new'
      · simp only [h, if_true, true_iff]
        exact ⟨new', rfl, new', rfl, by rw [← h, hf, h]⟩
      · rw [if_neg h]
        constructor
        · intro h'; cases h'
        · rintro ⟨t, rfl, o, rfl, h2⟩
          rw [hf] at h2; cases h2
          exact absurd rfl h

/-! ## C19: exit status -/

theorem check_spec (w : World) (found : List Found) :
    (∀ p, p ∈ (formatPathsCheck fmt resolver w found).1 ↔
      Found.file p ∈ found ∧ NeedsChange fmt resolver w p) ∧
    (∀ f, f ∈ (formatPathsCheck fmt resolver w found).2 ↔ f ∈ found ∧ Bad fmt resolver w f) := by
  induction found with
  | nil => simp [formatPathsCheck]
  | cons f found ih =>
    cases f with
    | error q =>
      simp only [formatPathsCheck, List.mem_cons]
      constructor
      · intro p; rw [ih.1]; simp
      · intro f; rw [ih.2]
        constructor
        · rintro (rfl | ⟨h1, h2⟩)
          · exact ⟨.inl rfl, trivial⟩
          · exact ⟨.inr h1, h2⟩
        · rintro ⟨rfl | h1, h2⟩
          · exact .inl rfl
          · exact .inr ⟨h1, h2⟩
    | file q =>
      simp only [formatPathsCheck]
      cases hf : formatPath fmt w q (Resolver.resolveOrFallback resolver q) with
      | none =>
        have hb := (formatPath_none fmt resolver).mp hf
        constructor
        · intro p
          simp only [ih.1, List.mem_cons, Found.file.injEq]
          constructor
          · rintro ⟨h1, h2⟩; exact ⟨.inr h1, h2⟩
          · rintro ⟨rfl | h1, h2⟩
            · obtain ⟨new, h3, _⟩ := h2; exact absurd h3 (hb new)
            · exact ⟨h1, h2⟩
        · intro f
          simp only [List.mem_cons, ih.2]
          constructor
          · rintro (rfl | ⟨h1, h2⟩)
            · exact ⟨.inl rfl, hb⟩
            · exact ⟨.inr h1, h2⟩
          · rintro ⟨rfl | h1, h2⟩
            · exact .inl rfl
            · exact .inr ⟨h1, h2⟩
      | some r =>
        have hnb : ¬ Bad fmt resolver w (.file q) := by
          rw [← formatPath_none, hf]; simp
        have herr : ∀ f, f ∈ (formatPathsCheck fmt resolver w found).2 ↔
            f ∈ Found.file q :: found ∧ Bad fmt resolver w f := by
          intro f
          rw [ih.2, List.mem_cons]
          constructor
          · rintro ⟨h1, h2⟩; exact ⟨.inr h1, h2⟩
          · rintro ⟨rfl | h1, h2⟩
            · exact absurd h2 hnb
            · exact ⟨h1, h2⟩
        cases r with
        | unchanged =>
          simp only [checkPath]
          refine ⟨?_, herr⟩
          intro p
          simp only [ih.1, List.mem_cons, Found.file.injEq]
          constructor
          · rintro ⟨h1, h2⟩; exact ⟨.inr h1, h2⟩
          · rintro ⟨rfl | h1, h2⟩
            · obtain ⟨new, h3⟩ := h2
              rw [← formatPath_changed, hf] at h3
              cases h3
            · exact ⟨h1, h2⟩
        | changed new =>
          simp only [checkPath]
          refine ⟨?_, herr⟩
          intro p
          simp only [ih.1, List.mem_cons, Found.file.injEq]
          have hn : NeedsChange fmt resolver w q := ⟨new, (formatPath_changed fmt resolver).mp hf⟩
          constructor
          · rintro (rfl | ⟨h1, h2⟩)
            · exact ⟨.inl rfl, hn⟩
            · exact ⟨.inr h1, h2⟩
          · rintro ⟨rfl | h1, h2⟩
            · exact .inl rfl
            · exact .inr ⟨h1, h2⟩

theorem isEmpty_iff {α} (l : List α) : l.isEmpty = true ↔ ∀ a, a ∉ l := by
  cases l with
  | nil => simp
  | cons a l => simp; exact ⟨a, by simp⟩

/-- C19: exit status of a check over discovered files. -/
theorem C19_check_status (found : List Found) (w : World) :
    let status := (formatPaths fmt outcome .check resolver found w).status
    (status.code = 255 ↔ ∃ f ∈ found, Bad fmt resolver w f) ∧
    (status.code = 1 ↔ (∀ f ∈ found, ¬ Bad fmt resolver w f) ∧
      ∃ p, Found.file p ∈ found ∧ NeedsChange fmt resolver w p) ∧
    (status.code = 0 ↔ (∀ f ∈ found, ¬ Bad fmt resolver w f) ∧
      ∀ p, Found.file p ∈ found → ¬ NeedsChange fmt resolver w p) := by
  intro status
  obtain ⟨h1, h2⟩ := check_spec fmt resolver w found
  have he : (formatPathsCheck fmt resolver w found).2.isEmpty = true ↔
      ∀ f ∈ found, ¬ Bad fmt resolver w f := by
    rw [isEmpty_iff]; simp only [h2]
    exact ⟨fun h f hf hb => h f ⟨hf, hb⟩, fun h f hb => h f hb.1 hb.2⟩
  have hp : (formatPathsCheck fmt resolver w found).1.isEmpty = true ↔
      ∀ p, Found.file p ∈ found → ¬ NeedsChange fmt resolver w p := by
    rw [isEmpty_iff]; simp only [h1]
    exact ⟨fun h f hf hb => h f ⟨hf, hb⟩, fun h f hb => h f hb.1 hb.2⟩
  have he' : (∃ f ∈ found, Bad fmt resolver w f) ↔
      ¬ ∀ f ∈ found, ¬ Bad fmt resolver w f := by
    constructor
    · rintro ⟨f, hf, hb⟩ h; exact h f hf hb
    · intro h
      apply Classical.byContradiction
      intro hn; exact h fun f hf hb => hn ⟨f, hf, hb⟩
  have hp' : (∃ p, Found.file p ∈ found ∧ NeedsChange fmt resolver w p) ↔
      ¬ ∀ p, Found.file p ∈ found → ¬ NeedsChange fmt resolver w p := by
    constructor
    · rintro ⟨f, hf, hb⟩ h; exact h f hf hb
    · intro h
      apply Classical.byContradiction
      intro hn; exact h fun f hf hb => hn ⟨f, hf, hb⟩
  rw [he', hp', ← he, ← hp]
  simp only [status, formatPaths]
  by_cases h : (formatPathsCheck fmt resolver w found).2.isEmpty = true
  · rw [if_pos h]
    by_cases h' : (formatPathsCheck fmt resolver w found).1.isEmpty = true
    · rw [if_pos h']; simp [h, h', ExitStatus.code]
    · rw [if_neg h']; simp [h, h', ExitStatus.code]
  · rw [if_neg h]; simp [h, ExitStatus.code]

/-- The files after processing some discovered items in write mode. -/
def after (found : List Found) (w : World) : World :=
  (formatPathsWrite fmt outcome resolver found w).1

theorem write_append (a b : List Found) (w : World) :
    formatPathsWrite fmt outcome resolver (a ++ b) w =
      ((formatPathsWrite fmt outcome resolver b (after fmt outcome resolver a w)).1,
       (formatPathsWrite fmt outcome resolver a w).2 ++
        (formatPathsWrite fmt outcome resolver b (after fmt outcome resolver a w)).2) := by
  induction a generalizing w with
  | nil => simp [formatPathsWrite, after]
  | cons f a ih =>
    cases f with
    | error p => simp [formatPathsWrite, after, ih]
    | file p =>
      simp only [List.cons_append, formatPathsWrite, after]
      cases hf : formatPath fmt w p (Resolver.resolveOrFallback resolver p) with
      | none => simp [ih, after]
      | some r =>
        simp only [ih]
        split <;> simp [after]

/-- What is written for one file. -/
theorem after_one (p : Path) (w : World) :
    (∀ q, q ≠ p → after fmt outcome resolver [.file p] w q = w q) ∧
    (¬ NeedsChange fmt resolver w p → after fmt outcome resolver [.file p] w = w) ∧
    (∀ new, Formats fmt resolver w p new → outcome p = .ok →
      after fmt outcome resolver [.file p] w p = some new) ∧
    ((formatPathsWrite fmt outcome resolver [.file p] w).2 = [] ↔
      ¬ (Bad fmt resolver w (.file p) ∨ NeedsChange fmt resolver w p ∧ outcome p ≠ .ok)) := by
  simp only [after, formatPathsWrite]
  cases hf : formatPath fmt w p (Resolver.resolveOrFallback resolver p) with
  | none =>
    have hb := (formatPath_none fmt resolver).mp hf
    exact ⟨fun _ _ => rfl, fun _ => rfl, fun new h => absurd h (hb new), by simp [hb]⟩
  | some r =>
    have hnb : ¬ Bad fmt resolver w (.file p) := by rw [← formatPath_none, hf]; simp
    cases r with
    | unchanged =>
      simp only [writePath]
      refine ⟨fun _ _ => trivial, fun _ => trivial, ?_, ?_⟩
      · rintro new ⟨old, h1, h2⟩ _
        obtain ⟨t, h3, old', h4, h5⟩ := (formatPath_unchanged fmt resolver).mp hf
        rw [h1] at h4; cases h4
        rw [h2] at h5; cases h5
        exact h3
      · have : ¬ NeedsChange fmt resolver w p := by
          rintro ⟨new, h⟩
          rw [← formatPath_changed, hf] at h
          cases h
        simp [hnb, this]
    | changed new =>
      have hc := (formatPath_changed fmt resolver).mp hf
      have hn : NeedsChange fmt resolver w p := ⟨new, hc⟩
      simp only [writePath]
      obtain ho | ⟨t, ho⟩ : outcome p = .ok ∨ ∃ t, outcome p = .failed t := by
        cases outcome p with
        | ok => exact .inl rfl
        | failed t => exact .inr ⟨t, rfl⟩
      · simp only [ho]
        refine ⟨fun q hq => by simp [World.set, hq], fun h => absurd hn h, ?_, by simp [hnb]⟩
        rintro new' ⟨old, h1, h2⟩ _
        obtain ⟨⟨old', h3, h4⟩, _⟩ := hc
        rw [h1] at h3; cases h3
        rw [h2] at h4; cases h4
        simp [World.set]
      · simp only [ho]
        refine ⟨fun q hq => by simp [World.set, hq], fun h => absurd hn h, fun _ _ h => by (cases h), ?_⟩
        simp [hn]

/-- C19: exit status of write mode over discovered files (processed in order, so the state of the
files when an item is processed is the one after the items before it). -/
theorem C19_write_status (found : List Found) (w : World) :
    let status := (formatPaths fmt outcome .write resolver found w).status
    (status.code = 255 ↔ ∃ pre f post, found = pre ++ f :: post ∧
      (Bad fmt resolver (after fmt outcome resolver pre w) f ∨
        ∃ p, f = .file p ∧ NeedsChange fmt resolver (after fmt outcome resolver pre w) p ∧
          outcome p ≠ .ok)) ∧
    (status.code = 255 ∨ status.code = 0) := by
  intro status
  have key : ∀ w, (formatPathsWrite fmt outcome resolver found w).2 ≠ [] ↔
      ∃ pre f post, found = pre ++ f :: post ∧
      (Bad fmt resolver (after fmt outcome resolver pre w) f ∨
        ∃ p, f = .file p ∧ NeedsChange fmt resolver (after fmt outcome resolver pre w) p ∧
          outcome p ≠ .ok) := by
    clear status
    clear w
    induction found with
    | nil =>
      intro w
      simp only [formatPathsWrite, ne_eq, not_true, false_iff]
      rintro ⟨pre, f, post, h, _⟩
      cases pre <;> cases h
    | cons f found ih =>
      intro w
      have hsplit : formatPathsWrite fmt outcome resolver (f :: found) w = _ :=
        write_append fmt outcome resolver [f] found w
      rw [hsplit]
      have hf : (formatPathsWrite fmt outcome resolver [f] w).2 ≠ [] ↔
          (Bad fmt resolver w f ∨ ∃ p, f = .file p ∧ NeedsChange fmt resolver w p ∧
            outcome p ≠ .ok) := by
        cases f with
        | error p => simp [formatPathsWrite, Bad]
        | file p =>
          rw [ne_eq, (after_one fmt outcome resolver p w).2.2.2, Classical.not_not]
          simp
      have hne : ∀ (a b : List Found), a ++ b ≠ [] ↔ a ≠ [] ∨ b ≠ [] := by
        intro a b; cases a <;> simp
      rw [hne, hf, ih]
      constructor
      · rintro (h | ⟨pre, g, post, h1, h2⟩)
        · exact ⟨[], f, found, rfl, h⟩
        · refine ⟨f :: pre, g, post, by simp [h1], ?_⟩
          have : after fmt outcome resolver (f :: pre) w =
              after fmt outcome resolver pre (after fmt outcome resolver [f] w) := by
            have := write_append fmt outcome resolver [f] pre w
            simp only [List.singleton_append] at this
            unfold after
            rw [this]; rfl
          rw [this]; exact h2
      · rintro ⟨pre, g, post, h1, h2⟩
        cases pre with
        | nil => cases h1; exact .inl h2
        | cons x pre =>
          simp only [List.cons_append, List.cons.injEq] at h1
          obtain ⟨rfl, h1⟩ := h1
          refine .inr ⟨pre, g, post, h1, ?_⟩
          have : after fmt outcome resolver (f :: pre) w =
              after fmt outcome resolver pre (after fmt outcome resolver [f] w) := by
            have := write_append fmt outcome resolver [f] pre w
            simp only [List.singleton_append] at this
            unfold after
            rw [this]; rfl
          rw [this] at h2; exact h2
  rw [← key w]
  simp only [status, formatPaths]
  cases h : (formatPathsWrite fmt outcome resolver found w).2 with
  | nil => simp [ExitStatus.code]
  | cons e es => simp [ExitStatus.code]

theorem after_cons (f : Found) (found : List Found) (w : World) :
    after fmt outcome resolver (f :: found) w =
      after fmt outcome resolver found (after fmt outcome resolver [f] w) := by
  have := write_append fmt outcome resolver [f] found w
  simp only [List.singleton_append] at this
  unfold after
  rw [this]; rfl

theorem after_error (p : Path) (w : World) : after fmt outcome resolver [.error p] w = w := rfl

theorem formats_congr {w w' : World} {p : Path} (h : w p = w' p) (new : String) :
    Formats fmt resolver w p new ↔ Formats fmt resolver w' p new := by
  unfold Formats; rw [h]

theorem needs_congr {w w' : World} {p : Path} (h : w p = w' p) :
    NeedsChange fmt resolver w p ↔ NeedsChange fmt resolver w' p := by
  unfold NeedsChange Formats; rw [h]

/-- Files that are not discovered, cannot be formatted or are formatted already are untouched (even
if some are discovered repeatedly and some writes fail). -/
theorem after_untouched (found : List Found) (w : World) (p : Path)
    (h : Found.file p ∉ found ∨ ¬ NeedsChange fmt resolver w p) :
    after fmt outcome resolver found w p = w p := by
  induction found generalizing w with
  | nil => rfl
  | cons f found ih =>
    rw [after_cons]
    have h1 : after fmt outcome resolver [f] w p = w p := by
      cases f with
      | error q => rfl
      | file q =>
        by_cases hq : p = q
        · subst hq
          have : ¬ NeedsChange fmt resolver w p := by
            rcases h with h | h
            · simp at h
            · exact h
          rw [(after_one fmt outcome resolver p w).2.1 this]
        · exact (after_one fmt outcome resolver q w).1 p hq
    rw [ih, h1]
    rw [needs_congr fmt resolver h1]
    rcases h with h | h
    · exact .inl fun hm => h (List.mem_cons_of_mem _ hm)
    · exact .inr h

/-- A discovered file that can be formatted ends up formatted. -/
theorem after_formatted (found : List Found) (hd : DistinctFiles found ∨ Idempotent fmt) (w : World)
    (p : Path) (new : String) (hp : Found.file p ∈ found) (hf : Formats fmt resolver w p new)
    (ho : outcome p = .ok) : after fmt outcome resolver found w p = some new := by
  induction found generalizing w with
  | nil => cases hp
  | cons f found ih =>
    rw [after_cons]
    have hd' : DistinctFiles found ∨ Idempotent fmt := by
      rcases hd with hd | hd
      · exact .inl (List.pairwise_cons.mp hd).2
      · exact .inr hd
    by_cases hfp : f = .file p
    · subst hfp
      have h1 := (after_one fmt outcome resolver p w).2.2.1 new hf ho
      by_cases hmem : Found.file p ∈ found
      · rcases hd with hd | hd
        · exact absurd rfl ((List.pairwise_cons.mp hd).1 _ hmem p rfl)
        · refine ih hd' _ hmem ⟨new, h1, ?_⟩
          obtain ⟨old, _, h2⟩ := hf
          exact hd _ _ _ h2
      · rw [after_untouched fmt outcome resolver found _ p (.inl hmem), h1]
    · have h1 : after fmt outcome resolver [f] w p = w p := by
        cases f with
        | error q => rfl
        | file q =>
          refine (after_one fmt outcome resolver q w).1 p ?_
          rintro rfl; exact hfp rfl
      refine ih hd' _ ?_ ?_
      · rcases List.mem_cons.mp hp with h | h
        · exact absurd h.symm hfp
        · exact h
      · rw [formats_congr fmt resolver h1]; exact hf

/-- C19: exit status of write mode when no file is discovered twice. -/
theorem C19_write_status_distinct (found : List Found) (hd : DistinctFiles found) (w : World) :
    let status := (formatPaths fmt outcome .write resolver found w).status
    status.code = 255 ↔ ∃ f ∈ found, Bad fmt resolver w f ∨
        ∃ p, f = .file p ∧ NeedsChange fmt resolver w p ∧ outcome p ≠ .ok := by
  intro status
  rw [(C19_write_status fmt outcome resolver found w).1]
  have hsame : ∀ pre f post, found = pre ++ f :: post → ∀ p, f = .file p →
      after fmt outcome resolver pre w p = w p := by
    rintro pre f post rfl p rfl
    refine after_untouched fmt outcome resolver pre w p (.inl fun hm => ?_)
    exact (List.pairwise_append.mp hd).2.2 _ hm _ (by simp) p rfl rfl
  have hbad : ∀ pre f post, found = pre ++ f :: post →
      (Bad fmt resolver (after fmt outcome resolver pre w) f ↔ Bad fmt resolver w f) := by
    intro pre f post h
    cases f with
    | error p => simp [Bad]
    | file p => simp only [Bad, formats_congr fmt resolver (hsame pre _ post h p rfl)]
  constructor
  · rintro ⟨pre, f, post, h, h1⟩
    refine ⟨f, by rw [h]; simp, ?_⟩
    rw [hbad pre f post h] at h1
    refine h1.imp id ?_
    rintro ⟨p, h2, h3, h4⟩
    exact ⟨p, h2, (needs_congr fmt resolver (hsame pre f post h p h2)).mp h3, h4⟩
  · rintro ⟨f, hf, h1⟩
    obtain ⟨pre, post, h⟩ := List.append_of_mem hf
    refine ⟨pre, f, post, h, ?_⟩
    rw [hbad pre f post h]
    refine h1.imp id ?_
    rintro ⟨p, h2, h3, h4⟩
    exact ⟨p, h2, (needs_congr fmt resolver (hsame pre f post h p h2)).mpr h3, h4⟩

/-! ## C20: check and write mode -/

/-- C20: check mode changes no file and reports exactly the discovered files formatting would change. -/
theorem C20_check (found : List Found) (w : World) :
    (formatPaths fmt outcome .check resolver found w).files = w ∧
    ∀ p, p ∈ (formatPaths fmt outcome .check resolver found w).reported ↔
      Found.file p ∈ found ∧ NeedsChange fmt resolver w p :=
  ⟨rfl, (check_spec fmt resolver w found).1⟩

/-- C20: write mode touches no file that is not discovered, cannot be read or parsed, or is
formatted already, whatever happens to the other files. -/
theorem C20_untouched (found : List Found) (w : World) (p : Path)
    (h : Found.file p ∉ found ∨ Bad fmt resolver w (.file p) ∨
      ∃ text, w p = some text ∧ Formats fmt resolver w p text) :
    (formatPaths fmt outcome .write resolver found w).files p = w p := by
  refine after_untouched fmt outcome resolver found w p ?_
  rcases h with h | h | ⟨t, h1, o, h2, h3⟩
  · exact .inl h
  · exact .inr fun ⟨new, h1, _⟩ => h new h1
  · refine .inr fun ⟨new, ⟨old, h4, h5⟩, h6⟩ => ?_
    rw [h2] at h4; cases h4
    rw [h3] at h5; cases h5
    exact h6 h1

/-- C20: every discovered file that can be formatted and written is formatted, whatever happens to
the other files. (The formatter has to be idempotent if files are discovered twice, since
they are formatted twice then.) -/
theorem C20_formatted (found : List Found) (hd : DistinctFiles found ∨ Idempotent fmt) (w : World)
    (p : Path) (new : String) (hp : Found.file p ∈ found) (hf : Formats fmt resolver w p new)
    (ho : outcome p = .ok) :
    (formatPaths fmt outcome .write resolver found w).files p = some new :=
  after_formatted fmt outcome resolver found hd w p new hp hf ho

/-- C20: check mode reports exactly the files write mode changes (in writable directories). -/
theorem C20_check_predicts_write (found : List Found) (hd : DistinctFiles found ∨ Idempotent fmt)
    (w : World) (ho : ∀ p, outcome p = .ok) (p : Path) :
    p ∈ (formatPaths fmt outcome .check resolver found w).reported ↔
      (formatPaths fmt outcome .write resolver found w).files p ≠ w p := by
  rw [(C20_check fmt outcome resolver found w).2]
  constructor
  · rintro ⟨h1, new, h2, h3⟩
    rw [C20_formatted fmt outcome resolver found hd w p new h1 h2 (ho p)]
    exact fun h => h3 h.symm
  · intro h
    refine ⟨Classical.byContradiction fun hn => h ?_, Classical.byContradiction fun hn => h ?_⟩
    · exact after_untouched fmt outcome resolver found w p (.inl hn)
    · exact after_untouched fmt outcome resolver found w p (.inr hn)

/-! ## C21: convergence -/

theorem after_all_formatted (found : List Found) (w : World)
    (hi : ∀ p new, Found.file p ∈ found → Formats fmt resolver w p new →
      fmt (Resolver.resolveOrFallback resolver p) new = some new)
    (h : (formatPathsWrite fmt outcome resolver found w).2 = []) :
    (∀ p, Found.error p ∉ found) ∧
    ∀ p, Found.file p ∈ found → ∃ t, after fmt outcome resolver found w p = some t ∧
      Formats fmt resolver w p t ∧ fmt (Resolver.resolveOrFallback resolver p) t = some t := by
  induction found generalizing w with
  | nil => simp
  | cons f found ih =>
    have hsplit : formatPathsWrite fmt outcome resolver (f :: found) w = _ :=
      write_append fmt outcome resolver [f] found w
    rw [hsplit] at h
    simp only [List.append_eq_nil_iff] at h
    obtain ⟨h1, h2⟩ := h
    cases f with
    | error p => simp [formatPathsWrite] at h1
    | file q =>
      obtain ⟨g1, g2, g3, g4⟩ := after_one fmt outcome resolver q w
      rw [g4] at h1
      have hnb : ¬ Bad fmt resolver w (.file q) := fun h => h1 (.inl h)
      have : ∃ new, Formats fmt resolver w q new := by
        apply Classical.byContradiction
        intro hn; exact hnb fun new hh => hn ⟨new, hh⟩
      obtain ⟨new, hnew⟩ := this
      have hfix := hi q new (by simp) hnew
      have hq : after fmt outcome resolver [.file q] w q = some new := by
        by_cases hn : NeedsChange fmt resolver w q
        · have ho : outcome q = .ok := Classical.byContradiction fun ho => h1 (.inr ⟨hn, ho⟩)
          exact g3 new hnew ho
        · rw [g2 hn]
          apply Classical.byContradiction
          intro hne; exact hn ⟨new, hnew, hne⟩
      have hback : ∀ p t, Formats fmt resolver (after fmt outcome resolver [.file q] w) p t →
          Formats fmt resolver w p t := by
        intro p t ht
        by_cases hpq : p = q
        · subst hpq
          obtain ⟨old, k1, k2⟩ := ht
          rw [hq] at k1; cases k1
          rw [hfix] at k2; cases k2
          exact hnew
        · exact (formats_congr fmt resolver (g1 p hpq) t).mp ht
      obtain ⟨h3, h4⟩ := ih _ (fun p t hp ht => hi p t (List.mem_cons_of_mem _ hp) (hback p t ht)) h2
      refine ⟨by simpa using h3, ?_⟩
      intro p hp
      rw [after_cons]
      by_cases hm : Found.file p ∈ found
      · obtain ⟨t, k1, k2, k3⟩ := h4 p hm
        exact ⟨t, k1, hback p t k2, k3⟩
      · rw [after_untouched fmt outcome resolver found _ p (.inl hm)]
        have hpq : p = q := by
          rcases List.mem_cons.mp hp with h | h
          · cases h; rfl
          · exact absurd h hm
        subst hpq
        exact ⟨new, hq, hnew, hfix⟩

theorem stable (found : List Found) (w : World) (he : ∀ p, Found.error p ∉ found)
    (hf : ∀ p, Found.file p ∈ found → ∃ t, w p = some t ∧
      fmt (Resolver.resolveOrFallback resolver p) t = some t) :
    after fmt outcome resolver found w = w ∧
    (formatPaths fmt outcome .write resolver found w).status = .success ∧
    (formatPaths fmt outcome .check resolver found w).status = .success ∧
    (formatPaths fmt outcome .check resolver found w).reported = [] := by
  have hn : ∀ p, Found.file p ∈ found → ¬ NeedsChange fmt resolver w p := by
    rintro p hp ⟨new, ⟨old, h1, h2⟩, h3⟩
    obtain ⟨t, h4, h5⟩ := hf p hp
    rw [h1] at h4; cases h4
    rw [h2] at h5; cases h5
    exact h3 h1
  have hb : ∀ f ∈ found, ¬ Bad fmt resolver w f := by
    intro f hm hb
    cases f with
    | error p => exact he p hm
    | file p =>
      obtain ⟨t, h4, h5⟩ := hf p hm
      exact hb t ⟨t, h4, h5⟩
  have hsub : ∀ pre post, found = pre ++ post → after fmt outcome resolver pre w = w := by
    intro pre post h
    funext p
    refine after_untouched fmt outcome resolver pre w p ?_
    by_cases hm : Found.file p ∈ pre
    · exact .inr (hn p (by rw [h]; simp [hm]))
    · exact .inl hm
  have hcode : ∀ s : ExitStatus, s.code = 0 → s = .success := by
    intro s h; cases s <;> simp [ExitStatus.code] at h ⊢
  refine ⟨hsub found [] (by simp), hcode _ ?_, hcode _ ?_, ?_⟩
  · obtain ⟨h1, h2⟩ := C19_write_status fmt outcome resolver found w
    rcases h2 with h2 | h2
    · obtain ⟨pre, f, post, h3, h4⟩ := h1.mp h2
      rw [hsub pre (f :: post) h3] at h4
      rcases h4 with h4 | ⟨p, rfl, h4, _⟩
      · exact absurd h4 (hb f (by rw [h3]; simp))
      · exact absurd h4 (hn p (by rw [h3]; simp))
    · exact h2
  · exact (C19_check_status fmt outcome resolver found w).2.2.mpr ⟨hb, hn⟩
  · rw [List.eq_nil_iff_forall_not_mem]
    intro p hp
    obtain ⟨h1, h2⟩ := ((C20_check fmt outcome resolver found w).2 p).mp hp
    exact hn p h1 h2

end

/-- The command formats the file `p` with the settings `s`. -/
def Processes (env : Env) (c : Command) (p : Path) (s : Settings) : Prop :=
  ∃ settings found, discoverSettings env.compile env.disk c.paths = some settings ∧
    DiscoverFiles (buildResolver settings) c.exclude c.incl env.dropped
      (c.paths.map fun p => (p, env.tree p)) found ∧
    Found.file p ∈ found ∧ s = Resolver.resolveOrFallback (buildResolver settings) p

/-- C20: if no file is named twice, a successful write run formats each of its files. -/
theorem C20_run_formats (env : Env) (c : Command) (hc : c.check = false) (hs : c.stdinFilePath = none) (w : World)
    (hnames : ∀ p ∈ c.paths, Discovery.DistinctNames (env.tree p))
    (hroots : c.paths.Pairwise fun a b => ¬ a <+: b ∧ ¬ b <+: a)
    (o : Outcome) (h : Run env c w o) (hok : o.status = .success) (p : Path) (s : Settings)
    (hp : Processes env c p s) :
    ∃ old new, w p = some old ∧ env.fmt s old = some new ∧ o.files p = some new := by
  have hm : c.mode = .write := by simp [Command.mode, hc]
  cases h with
  | inconsistent h => exact absurd hs h
  | stdinSettings p h => rw [hs] at h; cases h
  | stdin p s h => rw [hs] at h; cases h
  | pathsSettings => cases hok
  | paths settings found _ hd hf =>
    rw [hm] at hok ⊢
    obtain ⟨settings', found', hd', hf', hp, rfl⟩ := hp
    rw [hd] at hd'; cases hd'
    have hp := (C17_schedule_irrelevant _ _ _ _ _ _ _ hf' hf).mem_iff.mp hp
    have hdist : DistinctFiles found := by
      have := C17_no_duplicates _ _ _ _ _ _ hf (by simpa using hnames) (List.pairwise_map.2 hroots)
      refine List.Pairwise.imp (fun hne p h1 h2 => hne (h1.trans h2.symm)) this
    have hst := (C19_write_status_distinct env.fmt env.outcome (buildResolver settings) found hdist w)
    have hno : ¬ ∃ f ∈ found, Bad env.fmt (buildResolver settings) w f ∨
        ∃ p, f = .file p ∧ NeedsChange env.fmt (buildResolver settings) w p ∧ env.outcome p ≠ .ok := by
      intro hex
      have hcode := hst.mpr hex
      rw [hok] at hcode
      cases hcode
    obtain ⟨new, hnew⟩ : ∃ new, Formats env.fmt (buildResolver settings) w p new :=
      Classical.byContradiction fun hn => hno ⟨_, hp, .inl fun new hh => hn ⟨new, hh⟩⟩
    obtain ⟨old, k1, k2⟩ := hnew
    refine ⟨old, new, k1, k2, ?_⟩
    by_cases hn : NeedsChange env.fmt (buildResolver settings) w p
    · have ho : env.outcome p = .ok := Classical.byContradiction fun ho => hno ⟨_, hp, .inr ⟨p, rfl, hn, ho⟩⟩
      exact C20_formatted _ _ _ found (.inl hdist) w p new hp ⟨old, k1, k2⟩ ho
    · have : w p = some new := Classical.byContradiction fun hne => hn ⟨new, ⟨old, k1, k2⟩, hne⟩
      rw [C20_untouched _ _ _ found w p (.inr (.inr ⟨new, this, old, k1, k2⟩)), this]

/-- C21: a successful write run formats each of its files, and if formatting them once more would change nothing,
then a second run (with any schedule) changes nothing and succeeds, and a check run succeeds and reports
nothing. -/
theorem C21_converges (env : Env) (c : Command) (hc : c.check = false)
    (hs : c.stdinFilePath = none) (w : World)
    (hi : ∀ p s old new, Processes env c p s → w p = some old → env.fmt s old = some new →
      env.fmt s new = some new)
    (o : Outcome) (h : Run env c w o) (hok : o.status = .success) :
    (∀ p s, Processes env c p s → ∃ old new, w p = some old ∧ env.fmt s old = some new ∧
      o.files p = some new) ∧
    (∀ o', Run env c o.files o' → o'.files = o.files ∧ o'.status = .success) ∧
    (∀ o', Run env { c with check := true } o.files o' →
      o'.files = o.files ∧ o'.status = .success ∧ o'.reported = []) := by
  have hm : c.mode = .write := by simp [Command.mode, hc]
  cases h with
  | inconsistent h => exact absurd hs h
  | stdinSettings p h => rw [hs] at h; cases h
  | stdin p s h => rw [hs] at h; cases h
  | pathsSettings => cases hok
  | paths settings found _ hd hf =>
    rw [hm] at hok ⊢
    have herr : (formatPathsWrite env.fmt env.outcome (buildResolver settings) found w).2 = [] := by
      simp only [formatPaths] at hok
      cases hl : (formatPathsWrite env.fmt env.outcome (buildResolver settings) found w).2 with
      | nil => rfl
      | cons a l => rw [hl] at hok; simp at hok
    obtain ⟨h1, h2⟩ := after_all_formatted env.fmt env.outcome (buildResolver settings) found w
      (fun p new hp ⟨old, k1, k2⟩ => hi p _ old new ⟨settings, found, hd, hf, hp, rfl⟩ k1 k2) herr
    have key : ∀ found', DiscoverFiles (buildResolver settings) c.exclude c.incl env.dropped
        (c.paths.map fun p => (p, env.tree p)) found' → _ := fun found' hf' =>
      have hperm := C17_schedule_irrelevant _ _ _ _ _ _ _ hf' hf
      stable env.fmt env.outcome (buildResolver settings) found'
        (after env.fmt env.outcome (buildResolver settings) found w)
        (fun p hp => h1 p (hperm.mem_iff.mp hp)) (fun p hp =>
          have ⟨t, k1, _, k2⟩ := h2 p (hperm.mem_iff.mp hp); ⟨t, k1, k2⟩)
    refine ⟨?_, ?_, ?_⟩
    · rintro p s ⟨settings', found', hd', hf', hp, rfl⟩
      rw [hd] at hd'; cases hd'
      obtain ⟨t, k1, ⟨old, k2, k3⟩, _⟩ := h2 p ((C17_schedule_irrelevant _ _ _ _ _ _ _ hf' hf).mem_iff.mp hp)
      exact ⟨old, t, k2, k3, k1⟩
    · intro o' h'
      cases h' with
      | inconsistent h => exact absurd hs h
      | stdinSettings p h => rw [hs] at h; cases h
      | stdin p s h => rw [hs] at h; cases h
      | pathsSettings _ h => rw [hd] at h; cases h
      | paths settings' found' _ hd' hf' =>
        rw [hd] at hd'; cases hd'
        obtain ⟨k1, k2, _⟩ := key found' hf'
        rw [hm]
        exact ⟨k1, k2⟩
    · intro o' h'
      cases h' with
      | inconsistent h => exact absurd hs h
      | stdinSettings p h => rw [show _ = none from hs] at h; cases h
      | stdin p s h => rw [show _ = none from hs] at h; cases h
      | pathsSettings _ h => rw [show discoverSettings _ _ c.paths = _ from hd] at h; cases h
      | paths settings' found' _ hd' hf' =>
        rw [show discoverSettings _ _ c.paths = _ from hd] at hd'; cases hd'
        obtain ⟨_, _, k3, k4⟩ := key found' hf'
        exact ⟨rfl, k3, k4⟩

/-- C21 for an idempotent formatter. -/
theorem C21_second_run (env : Env) (hi : Idempotent env.fmt) (c : Command) (hc : c.check = false)
    (hs : c.stdinFilePath = none) (w : World) (o : Outcome) (h : Run env c w o)
    (hok : o.status = .success) :
    (∀ o', Run env c o.files o' → o'.files = o.files ∧ o'.status = .success) ∧
    (∀ o', Run env { c with check := true } o.files o' →
      o'.files = o.files ∧ o'.status = .success ∧ o'.reported = []) :=
  (C21_converges env c hc hs w (fun _ _ _ _ _ _ h => hi _ _ _ h) o h hok).2

/-- C19: contradictory arguments and invalid configuration files end in status 255, with no file
touched and nothing printed. -/
theorem C19_invalid_invocation (env : Env) (c : Command) (w : World) (o : Outcome)
    (h : Run env c w o)
    (hbad : (c.stdinFilePath ≠ none ∧ c.paths ≠ []) ∨
      (∃ p, c.stdinFilePath = some p ∧ discoverSettings env.compile env.disk [p] = none) ∨
      (c.stdinFilePath = none ∧ discoverSettings env.compile env.disk c.paths = none)) :
    o.status.code = 255 ∧ o.files = w ∧ o.stdout = none ∧ o.reported = [] := by
  cases h with
  | inconsistent => exact ⟨rfl, rfl, rfl, rfl⟩
  | stdinSettings => exact ⟨rfl, rfl, rfl, rfl⟩
  | pathsSettings => exact ⟨rfl, rfl, rfl, rfl⟩
  | stdin p s h1 h2 h3 =>
    rcases hbad with ⟨_, h⟩ | ⟨q, h4, h5⟩ | ⟨h4, _⟩
    · exact absurd h2 h
    · rw [h1] at h4; cases h4; rw [h3] at h5; cases h5
    · rw [h1] at h4; cases h4
  | paths s found h1 h2 h3 =>
    rcases hbad with ⟨h, _⟩ | ⟨q, h4, h5⟩ | ⟨_, h4⟩
    · exact absurd h1 h
    · rw [h1] at h4; cases h4
    · rw [h2] at h4; cases h4

/-! ## C18: standard input -/

theorem discover_single (resolver : Resolver Settings) (exclude : Exclude) (incl : Include)
    (dropped : Path → Bool → Bool) (p : Path) (found : List Found)
    (h : DiscoverFiles resolver exclude incl dropped [(p, .file)] found) :
    found = if isStdinFormattable p (Resolver.resolveOrFallback resolver p) exclude incl
      then [.file p] else [] := by
  have hp := discover_perm _ _ _ _ h
  simp only [List.flatMap_cons, List.flatMap_nil, List.append_nil, collect] at hp
  have : (visit resolver exclude incl ⟨p, 0, .file⟩).1 =
      if isStdinFormattable p (Resolver.resolveOrFallback resolver p) exclude incl
        then [.file p] else [] := by
    simp only [visit, isStdinFormattable, Node.isDir]
    cases exclude <;> cases incl <;> simp <;> repeat' split
    all_goals simp_all
  rw [this] at hp
  split
  · rename_i hc; rw [if_pos hc] at hp; exact List.perm_singleton.mp hp
  · rename_i hc; rw [if_neg hc] at hp; exact List.perm_nil.mp hp

/-- C18: piping a text in for a path is like naming a file with this text at this path: same
exit status, the text printed is the one the file would have afterwards, and nothing is
printed exactly if it would be an error. No file is touched. -/
theorem C18_stdin_like_file (env : Env) (check force : Bool) (p : Path) (text : String)
    (hin : env.stdin = some text) (hfile : env.tree p = .file) (ho : env.outcome p = .ok)
    (w w' : World) (hw : w' p = some text) (o o' : Outcome)
    (h : Run env { check, force, stdinFilePath := some p } w o)
    (h' : Run env { check, force, paths := [p] } w' o') :
    o.status = o'.status ∧ o.files = w ∧
    (check = false → o.stdout = if o'.status = .success then o'.files p else none) ∧
    (check = true → o.stdout = none) := by
  cases h with
  | inconsistent _ h => exact absurd rfl h
  | pathsSettings h => cases h
  | paths s found h => cases h
  | stdinSettings q h1 _ h2 =>
    cases h1
    cases h' with
    | inconsistent h => exact absurd rfl h
    | stdinSettings q h => cases h
    | stdin q s h => cases h
    | pathsSettings => exact ⟨rfl, rfl, fun _ => rfl, fun _ => rfl⟩
    | paths s found _ h3 => rw [show discoverSettings _ _ [p] = _ from h2] at h3; cases h3
  | stdin q s h1 _ h2 =>
    cases h1
    cases h' with
    | inconsistent h => exact absurd rfl h
    | stdinSettings q h => cases h
    | stdin q s h => cases h
    | pathsSettings _ h => rw [show discoverSettings _ _ [p] = _ from h2] at h; cases h
    | paths s' found _ h3 hf =>
      rw [show discoverSettings _ _ [p] = _ from h2] at h3
      cases h3
      simp only [List.map_cons, List.map_nil, hfile] at hf
      have hfound := discover_single _ _ _ _ _ _ hf
      subst hfound
      simp only [hin]
      generalize hset : Resolver.resolveOrFallback (buildResolver s) p = settings
      cases check with
      | true =>
        simp only [Command.mode, formatPaths, formatStdinFormat, formatStdinCheck, hset, if_true]
        by_cases hc : isStdinFormattable p settings
            (Command.exclude { check := true, force, paths := [p] })
            (Command.incl { check := true, force, paths := [p] }) = true
        · have hc' := hc
          simp only [Command.exclude, Command.incl] at hc' ⊢
          simp only [hc', if_true, Bool.not_true, Bool.false_eq_true, if_false, formatPathsCheck,
            hset, formatPath, hw, Option.bind_some, formatStdin]
          cases formatSource env.fmt settings text with
          | none => simp
          | some r => cases r <;> simp [checkPath]
        · have hc' := hc
          simp only [Command.exclude, Command.incl] at hc' ⊢
          simp [hc', formatPathsCheck]
      | false =>
        simp only [Command.mode, formatPaths, formatStdinFormat, formatStdinWrite, hset,
          Bool.false_eq_true, if_false]
        by_cases hc : isStdinFormattable p settings
            (Command.exclude { check := false, force, paths := [p] })
            (Command.incl { check := false, force, paths := [p] }) = true
        · have hc' := hc
          simp only [Command.exclude, Command.incl] at hc' ⊢
          simp only [hc', if_true, formatPathsWrite,
            hset, formatPath, hw, Option.bind_some, formatStdin]
          cases formatSource env.fmt settings text with
          | none => simp
          | some r => cases r <;> simp [writePath, ho, hw, World.set]
        · have hc' := hc
          simp only [Command.exclude, Command.incl] at hc' ⊢
          simp [hc', formatPathsWrite, hw]

/-- C18: text piped in for a path that would not be selected comes out as it is, and counts as
formatted in check mode. -/
theorem C18_not_selected (env : Env) (check force : Bool) (p : Path) (text : String)
    (hin : env.stdin = some text) (settings : List (Path × Settings))
    (hset : discoverSettings env.compile env.disk [p] = some settings)
    (hno : ∀ found,
      DiscoverFiles (buildResolver settings) (if force then .nothing else .matched)
        (if force then .everything else .matched) env.dropped [(p, .file)] found → found = [])
    (w : World) (o : Outcome) (h : Run env { check, force, stdinFilePath := some p } w o) :
    o.status = .success ∧ o.stdout = if check then none else some text := by
  cases h with
  | inconsistent _ h => exact absurd rfl h
  | pathsSettings h => cases h
  | paths s found h => cases h
  | stdinSettings q h1 _ h2 => cases h1; rw [hset] at h2; cases h2
  | stdin q s h1 _ h2 =>
    cases h1
    rw [hset] at h2; cases h2
    obtain ⟨found, hf⟩ := C17_result_exists (buildResolver settings)
      (if force then .nothing else .matched) (if force then .everything else .matched) env.dropped
      [(p, .file)]
    have h1 := discover_single _ _ _ _ _ _ hf
    rw [hno found hf] at h1
    have hnot : isStdinFormattable p (Resolver.resolveOrFallback (buildResolver settings) p)
        (if force then .nothing else .matched) (if force then .everything else .matched) = false := by
      cases hc : isStdinFormattable p (Resolver.resolveOrFallback (buildResolver settings) p)
        (if force then .nothing else .matched) (if force then .everything else .matched) with
      | false => rfl
      | true => rw [hc] at h1; cases h1
    cases check <;>
      simp [Command.mode, Command.exclude, Command.incl, formatStdinFormat, formatStdinCheck,
        formatStdinWrite, hnot, hin]

/-- Every command ends with some outcome. -/
theorem C19_some_outcome (env : Env) (c : Command) (w : World) : ∃ o, Run env c w o := by
  cases hs : c.stdinFilePath with
  | none =>
    cases hd : discoverSettings env.compile env.disk c.paths with
    | none => exact ⟨_, .pathsSettings hs hd⟩
    | some settings =>
      obtain ⟨found, hf⟩ := C17_result_exists (buildResolver settings) c.exclude c.incl env.dropped
        (c.paths.map fun p => (p, env.tree p))
      exact ⟨_, .paths settings found hs hd hf⟩
  | some p =>
    by_cases hp : c.paths = []
    · cases hd : discoverSettings env.compile env.disk [p] with
      | none => exact ⟨_, .stdinSettings p hs hp hd⟩
      | some settings => exact ⟨_, .stdin p settings hs hp hd⟩
    · exact ⟨_, .inconsistent (by simp [hs]) hp⟩

/-! ## C48: crashes -/

/-- The files after some of the changes were made. -/
def crashAfter (w : World) (ops : List FsOp) : World := ops.foldl FsOp.apply w

theorem crash_pieces (p : Path) (pieces : List String) (w : World) (t : String)
    (hw : w p = some t) :
    crashAfter w (pieces.map (FsOp.append p)) = w.set p (some (t ++ String.join pieces)) := by
  induction pieces generalizing w t with
  | nil =>
    funext q
    by_cases hq : q = p
    · subst hq; simp [crashAfter, World.set, hw, String.join]
    · simp [crashAfter, World.set, hq]
  | cons a pieces ih =>
    have h1 : crashAfter w ((a :: pieces).map (FsOp.append p)) =
        crashAfter (w.set p (some (t ++ a))) (pieces.map (FsOp.append p)) := by
      simp [crashAfter, FsOp.apply, hw]
    rw [h1, ih _ (t ++ a) (by simp [World.set])]
    funext q
    by_cases hq : q = p
    · subst hq
      have : String.join (a :: pieces) = a ++ String.join pieces := by
        simp [String.join_cons]
      simp [World.set, this, String.append_assoc]
    · simp [World.set, hq]

theorem join_take_prefix (pieces : List String) (k : Nat) :
    (String.join (pieces.take k)).toList <+: (String.join pieces).toList := by
  have : String.join pieces = String.join (pieces.take k) ++ String.join (pieces.drop k) := by
    rw [← String.join_append, List.take_append_drop]
  rw [this, String.toList_append]
  exact List.prefix_append _ _

/-- C48 (partial: a file being written when the process dies is damaged, see
`C48_contents_lost`): if write mode is interrupted at any point, every file but at most one has
either its original contents or the complete formatted ones; the one exception is a file about
to be changed, and it contains the beginning of its formatted text. -/
theorem C48_crash_partial (fmt : Formatter) (resolver : Resolver Settings) (found : List Found)
    (hd : DistinctFiles found ∨ Idempotent fmt) (w : World) (ops : List FsOp)
    (h : Ops fmt resolver found w ops) (k : Nat) :
    ∃ p, ∀ q, crashAfter w (ops.take k) q = w q ∨
      (Found.file q ∈ found ∧ ∃ new, Formats fmt resolver w q new ∧ w q ≠ some new ∧
        (crashAfter w (ops.take k) q = some new ∨
          q = p ∧ ∃ t, crashAfter w (ops.take k) q = some t ∧ t.toList <+: new.toList)) := by
  induction h generalizing k with
  | nil w => exact ⟨[], fun q => .inl (by simp [crashAfter])⟩
  | @error p rest w ops _ ih =>
    have hd' : DistinctFiles rest ∨ Idempotent fmt :=
      hd.imp (fun hd => (List.pairwise_cons.mp hd).2) id
    obtain ⟨p, hp⟩ := ih hd' k
    exact ⟨p, fun q => (hp q).imp id fun ⟨h1, h2⟩ => ⟨List.mem_cons_of_mem _ h1, h2⟩⟩
  | @skip p rest w ops _ _ ih =>
    have hd' : DistinctFiles rest ∨ Idempotent fmt :=
      hd.imp (fun hd => (List.pairwise_cons.mp hd).2) id
    obtain ⟨p, hp⟩ := ih hd' k
    exact ⟨p, fun q => (hp q).imp id fun ⟨h1, h2⟩ => ⟨List.mem_cons_of_mem _ h1, h2⟩⟩
  | @write p rest w ops new pieces hf hj hrest ih =>
    have hd' : DistinctFiles rest ∨ Idempotent fmt :=
      hd.imp (fun hd => (List.pairwise_cons.mp hd).2) id
    have hc := (formatPath_changed fmt resolver).mp hf
    cases k with
    | zero => exact ⟨p, fun q => .inl rfl⟩
    | succ k =>
      have hstep : ∀ l, crashAfter w (.truncate p :: l) = crashAfter (w.set p (some "")) l :=
        fun _ => rfl
      have happ : ∀ (w : World) l m, crashAfter w (l ++ m) = crashAfter (crashAfter w l) m := by
        intro w l m; simp [crashAfter]
      have hpre : ∀ k, crashAfter (w.set p (some "")) ((pieces.map (FsOp.append p)).take k) =
          w.set p (some (String.join (pieces.take k))) := by
        intro k
        rw [← List.map_take, crash_pieces p _ _ "" (by simp [World.set])]
        funext q
        by_cases hq : q = p <;> simp [World.set, hq]
      simp only [List.cons_append, List.take_succ_cons, hstep, List.take_append, happ, hpre]
      by_cases hk : k ≤ pieces.length
      · -- the crash happens while `p` is being written
        have : ops.take (k - (pieces.map (FsOp.append p)).length) = [] := by
          rw [List.length_map, Nat.sub_eq_zero_of_le hk]; rfl
        rw [this]
        refine ⟨p, fun q => ?_⟩
        by_cases hq : q = p
        · subst hq
          refine .inr ⟨by simp, new, hc.1, hc.2, .inr ⟨rfl, _, by simp [crashAfter, World.set]; rfl, ?_⟩⟩
          rw [← hj]; exact join_take_prefix pieces k
        · exact .inl (by simp [crashAfter, World.set, hq])
      · rw [List.take_of_length_le (by omega : pieces.length ≤ k), hj]
        obtain ⟨p', hp'⟩ := ih hd' (k - (pieces.map (FsOp.append p)).length)
        refine ⟨p', fun q => ?_⟩
        by_cases hq : q = p
        · subst hq
          rcases hp' q with h1 | ⟨h1, new', ⟨old, h2, h3⟩, h4, _⟩
          · refine .inr ⟨by simp, new, hc.1, hc.2, .inl ?_⟩
            rw [h1]; simp [World.set]
          · exfalso
            rcases hd with hd | hd
            · exact (List.pairwise_cons.mp hd).1 _ h1 q rfl rfl
            · simp only [World.set, if_true, Option.some.injEq] at h2 h4
              subst h2
              obtain ⟨⟨old', _, h5⟩, _⟩ := hc
              rw [hd _ _ _ h5] at h3
              cases h3
              exact h4 rfl
        · have hsame : w.set p (some new) q = w q := by simp [World.set, hq]
          rcases hp' q with h1 | ⟨h1, new', h2, h3, h4⟩
          · exact .inl (by rw [h1, hsame])
          · refine .inr ⟨List.mem_cons_of_mem _ h1, new', ?_, by rw [← hsame]; exact h3, h4⟩
            rw [← formats_congr fmt resolver hsame]; exact h2

/-- C48 is false: there is a point of the run at which the text of a file is lost. -/
theorem C48_contents_lost :
    ∃ (fmt : Formatter) (w : World) (ops : List FsOp) (k : Nat) (p : Path) (old new : String),
      Ops fmt (Resolver.new Settings.Settings.default) [.file p] w ops ∧ w p = some old ∧
      Formats fmt (Resolver.new Settings.Settings.default) w p new ∧ old ≠ "" ∧ new ≠ "" ∧
      crashAfter w (ops.take k) p = some "" := by
  refine ⟨fun _ _ => some "x <- 1\n", fun _ => some "x<-1\n", _, 1, ["/", "a.R"], "x<-1\n",
    "x <- 1\n", .write ["x <- 1\n"] ?_ rfl (.nil _), rfl, ⟨_, rfl, rfl⟩, by decide, by decide, ?_⟩
  · decide
  · simp [crashAfter, FsOp.apply, World.set]

/-- Running to the end has the effect of `formatPathsWrite`. -/
theorem C48_complete_run (fmt : Formatter) (resolver : Resolver Settings) (found : List Found)
    (w : World) (ops : List FsOp) (h : Ops fmt resolver found w ops) :
    crashAfter w ops = (formatPathsWrite fmt (fun _ => .ok) resolver found w).1 := by
  induction h with
  | nil => rfl
  | error _ ih => simpa [formatPathsWrite] using ih
  | @skip p rest w ops hs _ ih =>
    rw [ih]
    simp only [formatPathsWrite]
    rcases hs with hs | hs <;> rw [hs]
    rfl
  | @write p rest w ops new pieces hf hj _ ih =>
    have : crashAfter w (.truncate p :: pieces.map (FsOp.append p) ++ ops) =
        crashAfter (w.set p (some new)) ops := by
      have : crashAfter w (.truncate p :: pieces.map (FsOp.append p) ++ ops) =
          crashAfter (crashAfter (w.set p (some "")) (pieces.map (FsOp.append p))) ops := by
        simp [crashAfter, FsOp.apply]
      rw [this, crash_pieces p _ _ "" (by simp [World.set])]
      congr 1
      funext q
      by_cases hq : q = p <;> simp [World.set, hq, hj]
    rw [this, ih]
    simp only [formatPathsWrite, hf, writePath]

/-! ## Examples -/

/-- A formatter that fails on texts starting with `(` and otherwise makes them end with a newline. -/
def exFmt : Formatter := fun _ t =>
  if t.toList.head? = some '(' then none
  else if t.toList.getLast? = some '\n' then some t else some (t ++ "\n")

def exWorld : World := fun p =>
  if p = ["/", "a.R"] then some "x" else if p = ["/", "b.R"] then some "y\n"
  else if p = ["/", "c.R"] then some "(" else none

def exFound : List Found := [.file ["/", "c.R"], .file ["/", "a.R"], .error ["/", "e"], .file ["/", "b.R"]]

def exRes : Resolver Settings := Resolver.new Settings.Settings.default

theorem exFmt_idempotent : Idempotent exFmt := by
  intro s a b h
  unfold exFmt at h
  split at h
  · cases h
  · rename_i h1
    split at h
    · rename_i h2
      cases h
      simp [exFmt, h1, h2]
    · rename_i h2
      cases h
      have h3 : (a ++ "\n").toList = a.toList ++ ['\n'] := by simp
      have h4 : (a.toList ++ ['\n']).head? ≠ some '(' := by
        cases ha : a.toList with
        | nil => decide
        | cons c l => rw [ha] at h1; simpa using h1
      unfold exFmt
      rw [h3, if_neg h4]
      simp

example : DistinctFiles exFound ∧ Bad exFmt exRes exWorld (.file ["/", "c.R"]) ∧
    NeedsChange exFmt exRes exWorld ["/", "a.R"] ∧
    Formats exFmt exRes exWorld ["/", "b.R"] "y\n" := by
  refine ⟨?_, ?_, ⟨"x\n", ⟨"x", by decide, by decide⟩, by decide⟩, ⟨"y\n", by decide, by decide⟩⟩
  · simp [DistinctFiles, exFound]
  · rintro new ⟨old, h1, h2⟩
    simp [exWorld] at h1
    subst h1
    simp [exFmt] at h2

example : (formatPaths exFmt (fun _ => .ok) .check exRes exFound exWorld).status = .error ∧
    (formatPaths exFmt (fun _ => .ok) .check exRes exFound exWorld).reported = [["/", "a.R"]] ∧
    (formatPaths exFmt (fun _ => .ok) .check exRes [.file ["/", "a.R"], .file ["/", "b.R"]]
      exWorld).status = .failure ∧
    (formatPaths exFmt (fun _ => .ok) .write exRes exFound exWorld).files ["/", "a.R"] =
      some "x\n" ∧
    (formatPaths exFmt (fun _ => .ok) .write exRes exFound exWorld).files ["/", "c.R"] = some "(" := by
  decide +kernel

/-- An environment in which the write run of `C21_second_run` and the runs of `C18_stdin_like_file`
succeed. -/
def exEnv : Env where
  compile := fun _ _ => none
  disk := { isFile := fun _ => false, readToml := fun _ => none }
  tree := fun _ => .file
  dropped := fun _ _ => false
  fmt := exFmt
  outcome := fun _ => .ok
  stdin := some "x"

example : ∃ o, Run exEnv { paths := [["/", "a.R"], ["/", "a.R"]] } exWorld o ∧
    o.status = .success ∧ o.files ["/", "a.R"] = some "x\n" := by
  obtain ⟨o, h⟩ := C19_some_outcome exEnv { paths := [["/", "a.R"], ["/", "a.R"]] } exWorld
  refine ⟨o, h, ?_⟩
  cases h with
  | inconsistent h => exact absurd rfl h
  | stdinSettings q h => cases h
  | stdin q s h => cases h
  | pathsSettings _ h =>
    have : discoverSettings exEnv.compile exEnv.disk [["/", "a.R"], ["/", "a.R"]] = some [] := by rfl
    rw [show discoverSettings _ _ _ = _ from this] at h; cases h
  | paths s found _ hd hf =>
    have : discoverSettings exEnv.compile exEnv.disk [["/", "a.R"], ["/", "a.R"]] = some [] := by rfl
    rw [show discoverSettings _ _ _ = _ from this] at hd; cases hd
    have hp := discover_perm _ _ _ _ hf
    have hv : collect (buildResolver []) .matched .matched (fun _ _ => false) ["/", "a.R"] 0 .file =
        [.file ["/", "a.R"]] := by
      rw [collect]; decide +kernel
    have hp' : found.Perm (List.replicate 2 (.file ["/", "a.R"])) := by
      simpa [Command.exclude, Command.incl, exEnv, hv, List.flatMap_cons] using hp
    have := List.perm_replicate.mp hp'
    subst this
    refine ⟨?_, ?_⟩ <;> decide +kernel

end Verif.Cli
