import Verif.Spec.Settings
import Verif.Props.SortedStrings

/-!
# C14: configuration file to settings; C46: files formatted by default
-/

namespace Verif.Settings

open Verif.Resolver (Path)
open Verif.FilePatterns

/-- Reading an `air.toml` located in `root` (toml.rs:17-28 and discovery.rs:80-84), from its TOML tree. -/
def load (compile : Path → List String → Option FilePatterns) (doc : List (String × Toml))
    (root : Path) : Option Settings :=
  (deserialize doc).bind fun options => intoSettings compile options root

/-- The options given in the `[format]` table of the document. -/
def optionsOf (doc : List (String × Toml)) : String → Option Toml :=
  match doc.lookup "format" with
  | some (.table entries) => fun key => entries.lookup key
  | _ => fun _ => none

/-! ## Single values -/

theorem uint_eq_some {bound : Nat} {v : Toml} {n : Nat} :
    v.uint bound = some n ↔ v = .int n ∧ n < bound := by
  cases v <;> simp [Toml.uint]
  rename_i i
  constructor
  · rintro ⟨⟨h1, h2⟩, h3⟩; omega
  · rintro ⟨rfl, h⟩; omega

theorem deLineWidth_iff {v : Toml} {n : Nat} :
    deLineWidth v = some n ↔ v = .int n ∧ 1 ≤ n ∧ n ≤ 320 := by
  simp only [deLineWidth, Option.bind_eq_some_iff, uint_eq_some, lineWidthTryFrom]
  constructor
  · rintro ⟨m, ⟨h1, h2⟩, h3⟩
    split at h3
    · cases h3
    · split at h3
      · cases h3; exact ⟨h1, by omega, by omega⟩
      · cases h3
  · rintro ⟨rfl, h1, h2⟩
    exact ⟨n, ⟨rfl, by omega⟩, by simp [h2]; omega⟩

theorem deIndentWidth_iff {v : Toml} {n : Nat} :
    deIndentWidth v = some n ↔ v = .int n ∧ 1 ≤ n ∧ n ≤ 24 := by
  simp only [deIndentWidth, Option.bind_eq_some_iff, uint_eq_some, indentWidthTryFrom]
  constructor
  · rintro ⟨m, ⟨h1, h2⟩, h3⟩
    split at h3
    · cases h3
    · split at h3
      · cases h3; exact ⟨h1, by omega, by omega⟩
      · cases h3
  · rintro ⟨rfl, h1, h2⟩
    exact ⟨n, ⟨rfl, by omega⟩, by simp [h2]; omega⟩

theorem str?_eq_some {v : Toml} {s : String} : v.str? = some s ↔ v = .str s := by
  cases v <;> simp [Toml.str?]

theorem bool?_eq_some {v : Toml} {b : Bool} : v.bool? = some b ↔ v = .bool b := by
  cases v <;> simp [Toml.bool?]

theorem deIndentStyle_iff {v : Toml} {a : IndentStyle} :
    deIndentStyle v = some a ↔ v = .str "tab" ∧ a = .tab ∨ v = .str "space" ∧ a = .space := by
  simp only [deIndentStyle, Option.bind_eq_some_iff, str?_eq_some]
  constructor
  · rintro ⟨s, rfl, h⟩
    split at h
    · rename_i hs; subst hs; cases h; simp
    · split at h
      · rename_i hs; subst hs; cases h; simp
      · cases h
  · rintro (⟨rfl, rfl⟩ | ⟨rfl, rfl⟩)
    · exact ⟨"tab", rfl, by simp⟩
    · exact ⟨"space", rfl, by simp⟩

theorem deLineEnding_iff {v : Toml} {a : LineEnding.Setting} :
    deLineEnding v = some a ↔ v = .str "auto" ∧ a = .auto ∨ v = .str "lf" ∧ a = .lf ∨
      v = .str "crlf" ∧ a = .crlf ∨ v = .str "native" ∧ a = .native := by
  simp only [deLineEnding, Option.bind_eq_some_iff, str?_eq_some]
  constructor
  · rintro ⟨s, rfl, h⟩
    split at h
    · rename_i hs; subst hs; cases h; simp
    · split at h
      · rename_i hs; subst hs; cases h; simp
      · split at h
        · rename_i hs; subst hs; cases h; simp
        · split at h
          · rename_i hs; subst hs; cases h; simp
          · cases h
  · rintro (⟨rfl, rfl⟩ | ⟨rfl, rfl⟩ | ⟨rfl, rfl⟩ | ⟨rfl, rfl⟩)
    · exact ⟨"auto", rfl, by simp⟩
    · exact ⟨"lf", rfl, by simp⟩
    · exact ⟨"crlf", rfl, by simp⟩
    · exact ⟨"native", rfl, by simp⟩

theorem deAssignmentStyle_iff {v : Toml} {a : AssignmentStyle} :
    deAssignmentStyle v = some a ↔ v = .str "arrow" ∧ a = .arrow ∨ v = .str "equal" ∧ a = .equal ∨
      v = .str "preserve" ∧ a = .preserve := by
  simp only [deAssignmentStyle, Option.bind_eq_some_iff, str?_eq_some]
  constructor
  · rintro ⟨s, rfl, h⟩
    split at h
    · rename_i hs; subst hs; cases h; simp
    · split at h
      · rename_i hs; subst hs; cases h; simp
      · split at h
        · rename_i hs; subst hs; cases h; simp
        · cases h
  · rintro (⟨rfl, rfl⟩ | ⟨rfl, rfl⟩ | ⟨rfl, rfl⟩)
    · exact ⟨"arrow", rfl, by simp⟩
    · exact ⟨"equal", rfl, by simp⟩
    · exact ⟨"preserve", rfl, by simp⟩

theorem strsList_iff {items : List Toml} {names : List String} :
    strs? items = some names ↔ items = names.map .str := by
  induction items generalizing names with
  | nil => cases names <;> simp [strs?]
  | cons v items ih =>
    cases v <;> cases names <;> simp [strs?, ih]
    case str.cons => constructor <;> (rintro ⟨h1, h2⟩; exact ⟨by simp [h1, h2], by simp [h1, h2]⟩)

theorem strs?_iff {v : Toml} {names : List String} :
    v.strs? = some names ↔ v = .arr (names.map .str) := by
  cases v <;> simp [Toml.strs?, strsList_iff]

theorem field_iff {α : Type} {entries : List (String × Toml)} {key : String}
    {de : Toml → Option α} {a : Option α} :
    field entries key de = some a ↔
      (entries.lookup key = none ∧ a = none) ∨
        ∃ v x, entries.lookup key = some v ∧ de v = some x ∧ a = some x := by
  simp only [field]
  cases entries.lookup key with
  | none => simp [eq_comm]
  | some v => simp only [Option.map_eq_some_iff]; constructor
              · rintro ⟨x, h1, h2⟩; exact .inr ⟨v, x, rfl, h1, h2.symm⟩
              · rintro (⟨h, _⟩ | ⟨v', x, h1, h2, h3⟩)
                · cases h
                · cases h1; exact ⟨x, h2, h3.symm⟩

theorem field_isSome_iff {α : Type} {entries : List (String × Toml)} {key : String}
    {de : Toml → Option α} :
    (∃ a, field entries key de = some a) ↔
      ∀ v, entries.lookup key = some v → ∃ x, de v = some x := by
  simp only [field]
  cases entries.lookup key with
  | none => simp
  | some v => simp only [Option.map_eq_some_iff, Option.some.injEq, forall_eq']; constructor
              · rintro ⟨a, x, h, _⟩; exact ⟨x, h⟩
              · rintro ⟨x, h⟩; exact ⟨some x, x, h, rfl⟩

/-- What the derived deserialiser yields, field by field. -/
theorem deFormat_iff {v : Toml} {o : FormatOptions} :
    deFormat v = some o ↔ ∃ entries, v = .table entries ∧
      (∀ e ∈ entries, e.1 ∈ formatKeys) ∧
      field entries "line-width" deLineWidth = some o.lineWidth ∧
      field entries "indent-width" deIndentWidth = some o.indentWidth ∧
      field entries "indent-style" deIndentStyle = some o.indentStyle ∧
      field entries "line-ending" deLineEnding = some o.lineEnding ∧
      field entries "persistent-line-breaks" Toml.bool? = some o.persistentLineBreaks ∧
      field entries "assignment-style" deAssignmentStyle = some o.assignmentStyle ∧
      field entries "exclude" Toml.strs? = some o.exclude ∧
      field entries "default-exclude" Toml.bool? = some o.defaultExclude ∧
      field entries "skip" (fun v => v.strs?.map SortedStrings.new) = some o.skip ∧
      field entries "table" (fun v => v.strs?.map SortedStrings.new) = some o.table ∧
      field entries "default-table" Toml.bool? = some o.defaultTable := by
  cases v with
  | table entries =>
    simp only [deFormat, Toml.table.injEq, exists_eq_left']
    by_cases hk : (entries.all fun e => formatKeys.contains e.1) = true
    · rw [if_pos hk]
      have hk' : ∀ e ∈ entries, e.1 ∈ formatKeys := by simpa using hk
      rw [and_iff_right hk']
      simp only [Option.bind_eq_bind, Option.bind_eq_some_iff, Option.some.injEq]
      constructor
      · rintro ⟨_, h1, _, h2, _, h3, _, h4, _, h5, _, h6, _, h7, _, h8, _, h9, _, h10, _, h11, rfl⟩
        exact ⟨h1, h2, h3, h4, h5, h6, h7, h8, h9, h10, h11⟩
      · rintro ⟨h1, h2, h3, h4, h5, h6, h7, h8, h9, h10, h11⟩
        exact ⟨_, h1, _, h2, _, h3, _, h4, _, h5, _, h6, _, h7, _, h8, _, h9, _, h10, _, h11, rfl⟩
    · rw [if_neg hk]
      simp only [reduceCtorEq, false_iff]
      rintro ⟨h, _⟩
      exact hk (by simpa using h)
  | _ => simp [deFormat]

/-- A missing `[format]` table is like an empty one. -/
theorem deserialize_iff {doc : List (String × Toml)} {o : Option FormatOptions} :
    deserialize doc = some o ↔ (∀ e ∈ doc, e.1 = "format") ∧
      ((doc.lookup "format" = none ∧ o = none) ∨
        ∃ v x, doc.lookup "format" = some v ∧ deFormat v = some x ∧ o = some x) := by
  simp only [deserialize]
  by_cases hk : (doc.all fun e => e.1 == "format") = true
  · rw [if_pos hk, field_iff]
    have : ∀ e ∈ doc, e.1 = "format" := by simpa using hk
    rw [and_iff_right this]
  · rw [if_neg hk]
    simp only [reduceCtorEq, false_iff]
    rintro ⟨h, _⟩
    exact hk (by simpa using h)

theorem determined_getD {α : Type} {entries : List (String × Toml)} {key : String}
    {de : Toml → Option α} {a : Option α} {dflt : α} {means : Toml → α → Prop}
    (h : field entries key de = some a) (hm : ∀ v x, de v = some x → means v x) :
    Determined (entries.lookup key) dflt means (a.getD dflt) := by
  rcases field_iff.mp h with ⟨h1, rfl⟩ | ⟨v, x, h1, h2, rfl⟩
  · simp [Determined, h1]
  · simp [Determined, h1, hm v x h2]

theorem contains_new_iff {names : List String} {name : String} :
    SortedStrings.contains (SortedStrings.new names) name = true ↔ name ∈ names :=
  SortedStrings.C13_contains_iff names name

theorem map_str_inj {a b : List String} (h : a.map Toml.str = b.map Toml.str) : a = b := by
  induction a generalizing b with
  | nil => cases b <;> simp_all
  | cons x a ih =>
    cases b with
    | nil => simp at h
    | cons y b =>
      simp only [List.map_cons, List.cons.injEq, Toml.str.injEq] at h
      rw [h.1, ih h.2]

/-- The settings made from deserialised options are the documented ones. -/
theorem intoSettings_documented {compile : Path → List String → Option FilePatterns} {root : Path}
    {entries : List (String × Toml)} {o : FormatOptions} {s : Settings}
    (ho : deFormat (.table entries) = some o) (hs : intoSettings compile (some o) root = some s) :
    Documented compile root (fun key => entries.lookup key) s := by
  obtain ⟨e, he, _, h1, h2, h3, h4, h5, h6, h7, h8, h9, h10, h11⟩ := deFormat_iff.mp ho
  cases he
  simp only [intoSettings, Option.getD_some, Option.map_eq_some_iff] at hs
  obtain ⟨exc, hexc, rfl⟩ := hs
  constructor
  · exact determined_getD h1 fun v x h => (deLineWidth_iff.mp h).1
  · exact determined_getD h2 fun v x h => (deIndentWidth_iff.mp h).1
  · exact determined_getD h3 fun v x h => deIndentStyle_iff.mp h
  · exact determined_getD h4 fun v x h => deLineEnding_iff.mp h
  · rcases field_iff.mp h5 with ⟨h, h'⟩ | ⟨v, x, h, h', h''⟩
    · simp [Determined, h, h']
    · rw [bool?_eq_some] at h'
      cases x <;> simp [Determined, h, h', h'']
  · exact determined_getD h6 fun v x h => deAssignmentStyle_iff.mp h
  · rcases field_iff.mp h7 with ⟨h, h'⟩ | ⟨v, x, h, h', h''⟩
    · rw [h'] at hexc
      simp at hexc
      simp [Determined, h, ← hexc]
    · rw [h''] at hexc
      simp only [Option.map_eq_some_iff] at hexc
      obtain ⟨p, hp, rfl⟩ := hexc
      rw [strs?_iff] at h'
      simp only [Determined, h]
      exact ⟨x, p, h', hp, rfl⟩
  · rcases field_iff.mp h8 with ⟨h, h'⟩ | ⟨v, x, h, h', h''⟩
    · simp [Determined, h, h']
    · rw [bool?_eq_some] at h'
      cases x <;> simp [Determined, h, h', h'']
  · rfl
  · intro name
    rcases field_iff.mp h9 with ⟨h, h'⟩ | ⟨v, x, h, h', h''⟩
    · simp [Names, h, h']
    · simp only [Option.map_eq_some_iff, strs?_iff] at h'
      obtain ⟨names, rfl, rfl⟩ := h'
      simp only [h'', Option.some.injEq, exists_eq_left', contains_new_iff, Names, h, Toml.arr.injEq]
      constructor
      · intro hm; exact ⟨names, rfl, hm⟩
      · rintro ⟨names', he, hm⟩; rw [map_str_inj he]; exact hm
  · intro name
    have hdef : SortedStrings.contains defaultTable name = true ↔ name = "tribble" ∨ name = "fcase" := by
      simp only [defaultTable, contains_new_iff]; simp
    have hdt : entries.lookup "default-table" ≠ some (.bool false) ↔ o.defaultTable.getD true = true := by
      rcases field_iff.mp h11 with ⟨h, h'⟩ | ⟨v, x, h, h', h''⟩
      · simp [h, h']
      · rw [bool?_eq_some] at h'
        cases x <;> simp [h, h', h'']
    rcases field_iff.mp h10 with ⟨h, h'⟩ | ⟨v, x, h, h', h''⟩
    · have hn : ¬ Names (entries.lookup "table") name := by simp [Names, h]
      rw [hdt]
      cases hd : o.defaultTable.getD true <;> simp [hd, h', hn, hdef]
    · simp only [Option.map_eq_some_iff, strs?_iff] at h'
      obtain ⟨names, rfl, rfl⟩ := h'
      have hn : Names (entries.lookup "table") name ↔ name ∈ names := by
        simp only [Names, h, Option.some.injEq, Toml.arr.injEq]
        constructor
        · rintro ⟨names', he, hm⟩; rw [map_str_inj he]; exact hm
        · intro hm; exact ⟨names, rfl, hm⟩
      rw [hdt, hn]
      cases hd : o.defaultTable.getD true
      · simp [hd, h'', contains_new_iff]
      · have := SortedStrings.C13_merge_iff names ["tribble", "fcase"] name
        simp [hd, h'', defaultTable, this]

/-- C14: whenever a configuration file is accepted, each setting is the documented one for its own
option (the specification mentions no other option). -/
theorem C14_documented_settings (compile : Path → List String → Option FilePatterns)
    (doc : List (String × Toml)) (root : Path) (s : Settings) (h : load compile doc root = some s) :
    Documented compile root (optionsOf doc) s := by
  simp only [load, Option.bind_eq_some_iff] at h
  obtain ⟨o, h1, h2⟩ := h
  obtain ⟨_, h1 | ⟨v, x, h3, h4, rfl⟩⟩ := deserialize_iff.mp h1
  · obtain ⟨h3, rfl⟩ := h1
    have h0 : deFormat (.table []) = some {} := by decide
    have := intoSettings_documented (compile := compile) (root := root) (s := s) h0 h2
    simpa [optionsOf, h3] using this
  · obtain ⟨entries, rfl, _⟩ := deFormat_iff.mp h4
    have := intoSettings_documented (compile := compile) (root := root) (s := s) h4 h2
    simpa [optionsOf, h3] using this

theorem lookup_mem {α : Type} {entries : List (String × α)} {k : String} {v : α}
    (h : entries.lookup k = some v) : (k, v) ∈ entries := by
  induction entries with
  | nil => simp at h
  | cons e entries ih =>
    obtain ⟨k', v'⟩ := e
    rw [List.lookup_cons] at h
    split at h
    · rename_i hk
      cases h
      have hk : k = k' := by simpa using hk
      simp [hk]
    · exact List.mem_cons_of_mem _ (ih h)

theorem lookup_of_mem {α : Type} {entries : List (String × α)} {e : String × α} (h : e ∈ entries) :
    ∃ v, entries.lookup e.1 = some v := by
  induction entries with
  | nil => simp at h
  | cons e' entries ih =>
    obtain ⟨k', v'⟩ := e'
    rw [List.lookup_cons]
    split
    · exact ⟨_, rfl⟩
    · rename_i hk
      rcases List.mem_cons.mp h with rfl | h
      · simp at hk
      · exact ih h

theorem validOption_key {compiles : List String → Prop} {key : String} {v : Toml}
    (h : ValidOption compiles key v) : key ∈ formatKeys := by
  unfold ValidOption at h
  split at h <;> first | exact h.elim | simp [formatKeys]

/-- C14: a configuration file is accepted exactly if it has only a `[format]` table all of whose
options are documented and have valid values. TOML tables have no duplicate keys. -/
theorem C14_accepted_iff (compile : Path → List String → Option FilePatterns)
    (doc : List (String × Toml)) (root : Path) :
    (∃ s, load compile doc root = some s) ↔
      (∀ e ∈ doc, e.1 = "format") ∧
      (∀ v, doc.lookup "format" = some v → ∃ entries, v = .table entries ∧
        ∀ key v, entries.lookup key = some v →
          ValidOption (fun names => ∃ p, compile root names = some p) key v) := by
  constructor
  · rintro ⟨s, h⟩
    simp only [load, Option.bind_eq_some_iff] at h
    obtain ⟨o, h1, h2⟩ := h
    obtain ⟨hk, h1⟩ := deserialize_iff.mp h1
    refine ⟨hk, ?_⟩
    intro v hv
    rcases h1 with ⟨h1, _⟩ | ⟨v', x, h3, h4, rfl⟩
    · rw [h1] at hv; cases hv
    · rw [h3] at hv; cases hv
      obtain ⟨entries, rfl, hkeys, g1, g2, g3, g4, g5, g6, g7, g8, g9, g10, g11⟩ := deFormat_iff.mp h4
      refine ⟨entries, rfl, ?_⟩
      have hexc : ∀ names, x.exclude = some names → ∃ p, compile root names = some p := by
        intro names hn
        simp only [intoSettings, Option.getD_some, Option.map_eq_some_iff, hn] at h2
        obtain ⟨_, ⟨p, hp, _⟩, _⟩ := h2
        exact ⟨p, hp⟩
      have get : ∀ {α : Type} {k : String} {de : Toml → Option α} {a : Option α} {v : Toml},
          field entries k de = some a → entries.lookup k = some v → ∃ x, de v = some x ∧ a = some x := by
        intro α k de a v hf hl
        rcases field_iff.mp hf with ⟨h, _⟩ | ⟨v', y, h, h', h''⟩
        · rw [h] at hl; cases hl
        · rw [h] at hl; cases hl; exact ⟨y, h', h''⟩
      intro key v hl
      have hkey := hkeys _ (lookup_mem hl)
      simp only [formatKeys, List.mem_cons, List.not_mem_nil, or_false] at hkey
      rcases hkey with rfl | rfl | rfl | rfl | rfl | rfl | rfl | rfl | rfl | rfl | rfl
      · obtain ⟨n, hn, _⟩ := get g1 hl
        exact ⟨n, deLineWidth_iff.mp hn⟩
      · obtain ⟨n, hn, _⟩ := get g2 hl
        exact ⟨n, deIndentWidth_iff.mp hn⟩
      · obtain ⟨n, hn, _⟩ := get g3 hl
        rcases deIndentStyle_iff.mp hn with h | h <;> simp [ValidOption, h.1]
      · obtain ⟨n, hn, _⟩ := get g4 hl
        rcases deLineEnding_iff.mp hn with h | h | h | h <;> simp [ValidOption, h.1]
      · obtain ⟨n, hn, _⟩ := get g5 hl
        exact ⟨n, bool?_eq_some.mp hn⟩
      · obtain ⟨n, hn, _⟩ := get g6 hl
        rcases deAssignmentStyle_iff.mp hn with h | h | h <;> simp [ValidOption, h.1]
      · obtain ⟨n, hn, hx⟩ := get g7 hl
        exact ⟨n, strs?_iff.mp hn, hexc n hx⟩
      · obtain ⟨n, hn, _⟩ := get g8 hl
        exact ⟨n, bool?_eq_some.mp hn⟩
      · obtain ⟨n, hn, _⟩ := get g9 hl
        simp only [Option.map_eq_some_iff, strs?_iff] at hn
        obtain ⟨names, h, _⟩ := hn
        exact ⟨names, h⟩
      · obtain ⟨n, hn, _⟩ := get g10 hl
        simp only [Option.map_eq_some_iff, strs?_iff] at hn
        obtain ⟨names, h, _⟩ := hn
        exact ⟨names, h⟩
      · obtain ⟨n, hn, _⟩ := get g11 hl
        exact ⟨n, bool?_eq_some.mp hn⟩
  · rintro ⟨hk, hv⟩
    cases hl : doc.lookup "format" with
    | none =>
      have h0 : deserialize doc = some none := deserialize_iff.mpr ⟨hk, .inl ⟨hl, rfl⟩⟩
      simp [load, h0, intoSettings]
    | some v =>
      obtain ⟨entries, rfl, hvalid⟩ := hv v hl
      have hkeys : ∀ e ∈ entries, e.1 ∈ formatKeys := by
        intro e he
        obtain ⟨v, hv⟩ := lookup_of_mem he
        exact validOption_key (hvalid _ v hv)
      have fld : ∀ {α : Type} (k : String) (de : Toml → Option α),
          (∀ v, ValidOption (fun names => ∃ p, compile root names = some p) k v → ∃ x, de v = some x) →
          ∃ a, field entries k de = some a := by
        intro α k de h
        exact field_isSome_iff.mpr fun v hv => h v (hvalid k v hv)
      obtain ⟨a1, h1⟩ := fld "line-width" deLineWidth (by
        rintro v ⟨n, hn⟩; exact ⟨n, deLineWidth_iff.mpr hn⟩)
      obtain ⟨a2, h2⟩ := fld "indent-width" deIndentWidth (by
        rintro v ⟨n, hn⟩; exact ⟨n, deIndentWidth_iff.mpr hn⟩)
      obtain ⟨a3, h3⟩ := fld "indent-style" deIndentStyle (by
        rintro v (rfl | rfl)
        · exact ⟨.tab, deIndentStyle_iff.mpr (by simp)⟩
        · exact ⟨.space, deIndentStyle_iff.mpr (by simp)⟩)
      obtain ⟨a4, h4⟩ := fld "line-ending" deLineEnding (by
        rintro v (rfl | rfl | rfl | rfl)
        · exact ⟨.auto, deLineEnding_iff.mpr (by simp)⟩
        · exact ⟨.lf, deLineEnding_iff.mpr (by simp)⟩
        · exact ⟨.crlf, deLineEnding_iff.mpr (by simp)⟩
        · exact ⟨.native, deLineEnding_iff.mpr (by simp)⟩)
      obtain ⟨a5, h5⟩ := fld "persistent-line-breaks" Toml.bool? (by
        rintro v ⟨b, rfl⟩; exact ⟨b, rfl⟩)
      obtain ⟨a6, h6⟩ := fld "assignment-style" deAssignmentStyle (by
        rintro v (rfl | rfl | rfl)
        · exact ⟨.arrow, deAssignmentStyle_iff.mpr (by simp)⟩
        · exact ⟨.equal, deAssignmentStyle_iff.mpr (by simp)⟩
        · exact ⟨.preserve, deAssignmentStyle_iff.mpr (by simp)⟩)
      obtain ⟨a7, h7⟩ := fld "exclude" Toml.strs? (by
        rintro v ⟨names, rfl, _⟩; exact ⟨names, strs?_iff.mpr rfl⟩)
      obtain ⟨a8, h8⟩ := fld "default-exclude" Toml.bool? (by
        rintro v ⟨b, rfl⟩; exact ⟨b, rfl⟩)
      obtain ⟨a9, h9⟩ := fld "skip" (fun v => v.strs?.map SortedStrings.new) (by
        rintro v ⟨names, rfl⟩; simp [strs?_iff.mpr rfl])
      obtain ⟨a10, h10⟩ := fld "table" (fun v => v.strs?.map SortedStrings.new) (by
        rintro v ⟨names, rfl⟩; simp [strs?_iff.mpr rfl])
      obtain ⟨a11, h11⟩ := fld "default-table" Toml.bool? (by
        rintro v ⟨b, rfl⟩; exact ⟨b, rfl⟩)
      have hde : deFormat (.table entries) =
          some ⟨a1, a2, a3, a4, a5, a6, a7, a8, a9, a10, a11⟩ :=
        deFormat_iff.mpr ⟨entries, rfl, hkeys, h1, h2, h3, h4, h5, h6, h7, h8, h9, h10, h11⟩
      have h0 : deserialize doc = some (some ⟨a1, a2, a3, a4, a5, a6, a7, a8, a9, a10, a11⟩) :=
        deserialize_iff.mpr ⟨hk, .inr ⟨_, _, hl, hde, rfl⟩⟩
      simp only [load, h0, Option.bind_some, intoSettings, Option.getD_some, Option.map_eq_some_iff]
      cases a7 with
      | none => exact ⟨_, none, rfl, rfl⟩
      | some names =>
        rcases field_iff.mp h7 with ⟨_, h⟩ | ⟨v, x, hv1, hv2, hv3⟩
        · cases h
        · cases hv3
          rw [strs?_iff] at hv2
          subst hv2
          obtain ⟨names', he, p, hp⟩ := hvalid "exclude" _ hv1
          have : names = names' := map_str_inj (by simpa using he)
          subst this
          exact ⟨_, some p, by simp [hp], rfl⟩

/-- C14: an empty configuration file, and one without a `[format]` table, means the same settings as
no configuration file at all. -/
theorem C14_empty_is_default (compile : Path → List String → Option FilePatterns) (root : Path) :
    load compile [] root = some Settings.default ∧
      load compile [("format", .table [])] root = some Settings.default := ⟨rfl, rfl⟩

/-- A configuration with several options set, one table name added and the defaults switched off. -/
def exDoc : List (String × Toml) :=
  [("format", .table [("line-width", .int 320), ("persistent-line-breaks", .bool false),
    ("table", .arr [.str "b", .str "a"]), ("default-table", .bool false),
    ("assignment-style", .str "equal")])]

example : ((load (fun _ _ => none) exDoc ["/"]).map fun s =>
    [decide (s.lineWidth = 320), decide (s.indentWidth = 2), decide (s.persistentLineBreaks = .ignore),
     decide (s.assignmentStyle = .equal), decide (s.table = some ["a", "b"])].all id) = some true := by
  decide +kernel

example : (load (fun _ _ => none) [("format", .table [("line-width", .int 321)])] ["/"]).isNone ∧
    (load (fun _ _ => none) [("format", .table [("line_width", .int 80)])] ["/"]).isNone ∧
    (load (fun _ _ => none) [("format", .table [("indent-width", .int (-1))])] ["/"]).isNone := by
  decide +kernel

end Verif.Settings
