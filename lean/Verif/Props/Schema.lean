import Verif.Model.Schema
import Verif.Props.Settings

/-!
# The published schema and air agree on `air.toml` (C84)
-/

namespace Verif.Settings

open Verif.Resolver (Path)
open Verif.FilePatterns

/-- There is no float and no date in the value, nor among the elements of the value. -/
def NoFloat (v : Value) : Prop :=
  (∀ n, v ≠ .float n) ∧ (∀ t, v ≠ .date t) ∧ ∀ items, v = .arr items → ∀ t, Value.date t ∉ items

theorem Value.toml_int {v : Value} {n : Int} : v.toml = .int n ↔ v = .int n := by
  cases v <;> simp [Value.toml]

theorem Value.toml_bool {v : Value} {b : Bool} : v.toml = .bool b ↔ v = .bool b := by
  cases v <;> simp [Value.toml]

theorem Value.toml_str {v : Value} {s : String} : v.toml = .str s ↔ v = .str s := by
  cases v <;> simp [Value.toml]

theorem Value.tomls_strs {items : List Value} {names : List String} :
    Value.tomls items = names.map .str ↔ items = names.map .str := by
  induction items generalizing names with
  | nil => cases names <;> simp [Value.tomls]
  | cons v vs ih => cases names <;> simp [Value.tomls, Value.toml_str, ih]

theorem Value.toml_strs {v : Value} {names : List String} : v.toml = .arr (names.map .str) ↔ v = .arr (names.map .str) := by
  cases v <;> simp [Value.toml, Value.tomls_strs]

theorem Value.toml_table {v : Value} {es : List (String × Toml)} :
    v.toml = .table es ↔ ∃ entries, v = .table entries ∧ Value.tomlEntries entries = es := by
  cases v <;> simp [Value.toml]

theorem Value.lookup_toml (entries : List (String × Value)) (k : String) :
    (Value.tomlEntries entries).lookup k = (entries.lookup k).map Value.toml := by
  induction entries with
  | nil => rfl
  | cons e es ih =>
    obtain ⟨a, v⟩ := e
    simp only [Value.tomlEntries, List.lookup_cons, ih]
    split <;> rfl

theorem Value.keys_toml (entries : List (String × Value)) :
    (Value.tomlEntries entries).map (·.1) = entries.map (·.1) := by
  induction entries with
  | nil => rfl
  | cons e es ih => simp [Value.tomlEntries, ih]

theorem orNull_valid {s : Schema} {v : Value} : (orNull s).valid v = s.valid v := by
  have : ([Ty.null].any (·.has v)) = false := by cases v <;> rfl
  cases h : s.valid v <;> simp [orNull, Schema.valid, Schemas.count, this, h]

theorem boolean_valid {v : Value} : (Schema.type [.boolean, .null]).valid v = true ↔ ∃ b, v = .bool b := by
  cases v <;> simp [Schema.valid, Ty.has]

theorem width_valid {m : Int} {v : Value} :
    (orNull (width m)).valid v = true ↔ ∃ n : Int, (v = .int n ∨ v = .float (some n)) ∧ 1 ≤ n ∧ n ≤ m := by
  rw [orNull_valid]
  rcases v with n | (_ | n) | _ | _ | _ | _ | _ <;>
    simp [width, Schema.valid, Ty.has, Value.number?, and_comm]

theorem strings_valid {ts : List Ty} (h : ts = [.array] ∨ ts = [.array, .null]) {v : Value} :
    (Schema.and (.type ts) (.items (.type [.string]))).valid v = true ↔
      ∃ items, v = .arr items ∧ ∀ i ∈ items, (∃ s, i = .str s) ∨ ∃ s, i = .date s := by
  have hi : ∀ i : Value, Ty.string.has i = true ↔ (∃ s, i = .str s) ∨ ∃ s, i = .date s := by
    intro i; cases i <;> simp [Ty.has]
  have ha : ∀ items, Ty.array.has (.arr items) = true := fun _ => rfl
  rcases h with rfl | rfl <;> cases v <;> first | (simp [Schema.valid, hi, ha]; done) | simp [Schema.valid, Ty.has]

theorem count_choices (l : List String) (v : Value) : (choices l).count v =
    match v with | .str s => l.count s | .date s => l.count s | _ => 0 := by
  induction l with
  | nil => cases v <;> rfl
  | cons a l ih =>
    cases v <;> simp [choices, Schemas.count, Schema.valid, Ty.has, ih, List.count_cons] <;> omega

theorem choices_valid {l : List String} (hl : l.Nodup) {v : Value} :
    (orNull (.oneOf (choices l))).valid v = true ↔ ∃ s ∈ l, v = .str s ∨ v = .date s := by
  rw [orNull_valid]
  have hc : ∀ s, l.count s = 1 ↔ s ∈ l := by
    intro s
    by_cases h : s ∈ l
    · have := List.nodup_iff_count.mp hl s
      have := List.count_pos_iff.mpr h
      simp only [h, iff_true]
      omega
    · simp [h, List.count_eq_zero_of_not_mem h]
  cases v <;> simp [Schema.valid, count_choices, hc]

theorem noFloat_strs {items : List Value} (h : ∀ i ∈ items, (∃ s, i = Value.str s) ∨ ∃ s, i = .date s)
    (hn : ∀ t, Value.date t ∉ items) : ∃ names : List String, items = names.map .str := by
  induction items with
  | nil => exact ⟨[], rfl⟩
  | cons i is ih =>
    obtain ⟨names, hnames⟩ := ih (fun j hj => h j (List.mem_cons_of_mem _ hj)) (fun t ht => hn t (List.mem_cons_of_mem _ ht))
    rcases h i (by simp) with ⟨s, rfl⟩ | ⟨t, rfl⟩
    · exact ⟨s :: names, by simp [hnames]⟩
    · exact absurd (by simp) (hn t)

theorem noFloat_arr (names : List String) : NoFloat (.arr (names.map .str)) := by
  refine ⟨by simp, by simp, ?_⟩
  intro items h t ht
  cases h
  simp at ht

/-- The schema of an option, by its name. -/
def Properties.get? : Properties → String → Option Schema
  | .nil, _ => none
  | .cons n s ps, k => if k = n then some s else ps.get? k

theorem Properties.valid_iff {ps : Properties} (entries : List (String × Value)) (hn : ps.names.Nodup) :
    ps.valid entries = true ↔ ∀ k s v, ps.get? k = some s → entries.lookup k = some v → s.valid v = true := by
  induction ps using Properties.names.induct with
  | case1 => simp [Properties.valid, Properties.get?]
  | case2 n s ps ih =>
    simp only [Properties.names, List.nodup_cons] at hn
    have hget : ∀ (qs : Properties) k s, qs.get? k = some s → k ∈ qs.names := by
      intro qs
      induction qs using Properties.names.induct with
      | case1 => simp [Properties.get?]
      | case2 m t qs ih =>
        intro k s
        simp only [Properties.get?, Properties.names, List.mem_cons]
        split
        · intro _; left; assumption
        · intro h; exact .inr (ih k s h)
    simp only [Properties.valid, Bool.and_eq_true, ih hn.2]
    constructor
    · rintro ⟨h1, h2⟩ k t v hk hl
      simp only [Properties.get?] at hk
      split at hk
      · rename_i e; cases hk; subst e; simpa [hl] using h1
      · exact h2 k t v hk hl
    · intro h
      constructor
      · cases hl : entries.lookup n with
        | none => rfl
        | some v => simpa using h n s v (by simp [Properties.get?]) hl
      · intro k t v hk hl
        refine h k t v ?_ hl
        have : k ≠ n := fun e => hn.1 (e ▸ hget ps k t hk)
        simp [Properties.get?, this, hk]

/-- The options of the schema of `[format]`. -/
def formatProperties : Properties :=
  match formatSchema with
  | .and _ (.properties ps _) => ps
  | _ => .nil

theorem formatSchema_valid {v : Value} : formatSchema.valid v = true ↔ ∃ entries, v = .table entries ∧
    formatProperties.valid entries = true ∧ ∀ e ∈ entries, e.1 ∈ formatProperties.names := by
  cases v <;> simp [formatSchema, formatProperties, Schema.valid, Ty.has, -Prod.forall]

theorem get_options :
    formatProperties.get? "line-width" = some (orNull (width 320)) ∧
    formatProperties.get? "indent-width" = some (orNull (width 24)) ∧
    formatProperties.get? "indent-style" = some (orNull (.oneOf (choices ["tab", "space"]))) ∧
    formatProperties.get? "line-ending" = some (orNull (.oneOf (choices ["auto", "lf", "crlf", "native"]))) ∧
    formatProperties.get? "persistent-line-breaks" = some (Schema.type [.boolean, .null]) ∧
    formatProperties.get? "assignment-style" = some (orNull (.oneOf (choices ["arrow", "equal", "preserve"]))) ∧
    formatProperties.get? "exclude" = some (Schema.and (.type [.array, .null]) (.items (.type [.string]))) ∧
    formatProperties.get? "default-exclude" = some (Schema.type [.boolean, .null]) ∧
    formatProperties.get? "skip" = some (orNull sortedStrings) ∧
    formatProperties.get? "table" = some (orNull sortedStrings) ∧
    formatProperties.get? "default-table" = some (Schema.type [.boolean, .null]) := by
  simp [formatProperties, formatSchema, Properties.get?]

theorem get_other {k : String} {s : Schema} (h : formatProperties.get? k = some s) : k ∈ formatKeys := by
  simp only [formatProperties, formatSchema, Properties.get?] at h
  repeat' split at h
  all_goals first | (subst_vars; simp [formatKeys]; done) | cases h

/-- What one option may be: air and the schema agree, but for floats, dates and patterns that do not compile. -/
theorem option_valid {compiles : List String → Prop} {k : String} {v : Value} :
    ValidOption compiles k v.toml ↔
      (∃ s, formatProperties.get? k = some s ∧ s.valid v = true) ∧ NoFloat v ∧
        (k = "exclude" → ∀ names : List String, v = .arr (names.map .str) → compiles names) := by
  have inj : ∀ {a b : List String}, a.map Value.str = b.map Value.str → a = b := by
    intro a
    induction a with
    | nil => intro b h; cases b <;> simp_all
    | cons x a ih =>
      intro b h
      cases b with
      | nil => simp at h
      | cons y b =>
        simp only [List.map_cons, List.cons.injEq, Value.str.injEq] at h
        rw [h.1, ih h.2]
  have hw : ∀ m : Nat, (∃ n : Nat, v.toml = .int n ∧ 1 ≤ n ∧ n ≤ m) ↔ (orNull (width m)).valid v = true ∧ NoFloat v := by
    intro m
    simp only [width_valid, Value.toml_int]
    constructor
    · rintro ⟨n, rfl, h1, h2⟩
      exact ⟨⟨n, .inl rfl, by omega, by omega⟩, by simp [NoFloat]⟩
    · rintro ⟨⟨n, rfl | rfl, h1, h2⟩, hn⟩
      · exact ⟨n.toNat, by simp; omega, by omega, by omega⟩
      · exact absurd rfl (hn.1 _)
  have hb : (∃ b, v.toml = .bool b) ↔ (Schema.type [.boolean, .null]).valid v = true ∧ NoFloat v := by
    simp only [boolean_valid, Value.toml_bool]
    constructor
    · rintro ⟨b, rfl⟩; exact ⟨⟨b, rfl⟩, by simp [NoFloat]⟩
    · rintro ⟨h, _⟩; exact h
  have hc : ∀ l : List String, l.Nodup → ((∃ s ∈ l, v.toml = .str s) ↔
      (orNull (.oneOf (choices l))).valid v = true ∧ NoFloat v) := by
    intro l hl
    simp only [choices_valid hl, Value.toml_str]
    constructor
    · rintro ⟨s, hs, rfl⟩; exact ⟨⟨s, hs, .inl rfl⟩, by simp [NoFloat]⟩
    · rintro ⟨⟨s, hs, rfl | rfl⟩, hn⟩
      · exact ⟨s, hs, rfl⟩
      · exact absurd rfl (hn.2.1 _)
  have hs : ∀ ts, (ts = [Ty.array] ∨ ts = [.array, .null]) → ((∃ names : List String, v.toml = .arr (names.map .str)) ↔
      (Schema.and (.type ts) (.items (.type [.string]))).valid v = true ∧ NoFloat v) := by
    intro ts hts
    simp only [strings_valid hts, Value.toml_strs]
    constructor
    · rintro ⟨names, rfl⟩
      exact ⟨⟨_, rfl, by simp⟩, noFloat_arr names⟩
    · rintro ⟨⟨items, rfl, hi⟩, hn⟩
      obtain ⟨names, rfl⟩ := noFloat_strs hi (hn.2.2 _ rfl)
      exact ⟨names, rfl⟩
  obtain ⟨g1, g2, g3, g4, g5, g6, g7, g8, g9, g10, g11⟩ := get_options
  unfold ValidOption
  split
  · simp [g1, hw 320]
  · simp [g2, hw 24]
  · have := hc ["tab", "space"] (by decide)
    simp only [List.mem_cons, List.not_mem_nil, or_false, exists_eq_or_imp, exists_eq_left] at this
    simp [g3, this]
  · have := hc ["auto", "lf", "crlf", "native"] (by decide)
    simp only [List.mem_cons, List.not_mem_nil, or_false, exists_eq_or_imp, exists_eq_left] at this
    simp [g4, this]
  · simp [g5, hb]
  · have := hc ["arrow", "equal", "preserve"] (by decide)
    simp only [List.mem_cons, List.not_mem_nil, or_false, exists_eq_or_imp, exists_eq_left] at this
    simp [g6, this]
  · have := hs [.array, .null] (.inr rfl)
    simp only [g7, Option.some.injEq, exists_eq_left', true_implies]
    rw [← and_assoc, ← this]
    constructor
    · rintro ⟨names, h, hcomp⟩
      refine ⟨⟨names, h⟩, ?_⟩
      rintro names' rfl
      rw [Value.toml_strs] at h
      have := inj (Value.arr.inj h)
      exact this ▸ hcomp
    · rintro ⟨⟨names, h⟩, hcomp⟩
      exact ⟨names, h, hcomp names (Value.toml_strs.mp h)⟩
  · simp [g8, hb]
  · simp [g9, hs [.array] (.inl rfl), sortedStrings, orNull_valid]
  · simp [g10, hs [.array] (.inl rfl), sortedStrings, orNull_valid]
  · simp [g11, hb]
  · constructor
    · exact False.elim
    · rintro ⟨⟨s, hs, _⟩, _⟩
      have := get_other hs
      simp only [formatKeys, List.mem_cons, List.not_mem_nil, or_false] at this
      grind

/-- C84: air accepts exactly the documents that are valid for the published schema, have no float and no date for an option, and
whose patterns compile. -/
theorem C84_exact (compile : Path → List String → Option FilePatterns) (doc : List (String × Value)) (root : Path) :
    (∃ s, load compile (Value.tomlEntries doc) root = some s) ↔
      airSchema.valid (.table doc) = true ∧
      ∀ entries, doc.lookup "format" = some (.table entries) →
        (∀ k v, entries.lookup k = some v → NoFloat v) ∧
        ∀ names : List String, entries.lookup "exclude" = some (.arr (names.map .str)) → ∃ p, compile root names = some p := by
  have hnodup : formatProperties.names.Nodup := by decide +kernel
  have hget : ∀ k, (∃ s, formatProperties.get? k = some s) ↔ k ∈ formatProperties.names := by
    intro k
    generalize formatProperties = ps
    induction ps using Properties.names.induct with
    | case1 => simp [Properties.get?, Properties.names]
    | case2 n s ps ih =>
      simp only [Properties.get?, Properties.names, List.mem_cons, ← ih]
      split <;> simp [*]
  have hair : airSchema.valid (.table doc) = true ↔ (∀ e ∈ doc, e.1 = "format") ∧
      ∀ v, doc.lookup "format" = some v → formatSchema.valid v = true := by
    simp only [airSchema, Schema.valid, Ty.has, Properties.valid, Properties.names, List.any_cons, List.any_nil, Bool.or_false,
      Bool.true_and, Bool.and_true, Bool.false_or, Bool.and_eq_true, List.all_eq_true, List.contains_iff_mem, List.mem_singleton]
    rw [and_comm]
    cases doc.lookup "format" <;> simp [orNull_valid]
  rw [C14_accepted_iff, hair]
  have hkeys : (∀ e ∈ Value.tomlEntries doc, e.1 = "format") ↔ ∀ e ∈ doc, e.1 = "format" := by
    have := Value.keys_toml doc
    have h1 : (∀ e ∈ Value.tomlEntries doc, e.1 = "format") ↔ ∀ k ∈ (Value.tomlEntries doc).map (·.1), k = "format" := by simp
    have h2 : (∀ e ∈ doc, e.1 = "format") ↔ ∀ k ∈ doc.map (·.1), k = "format" := by simp
    rw [h1, h2, this]
  rw [hkeys, and_assoc]
  apply and_congr_right
  intro _
  rw [Value.lookup_toml]
  cases hf : doc.lookup "format" with
  | none => simp
  | some w =>
    simp only [Option.map_some, Option.some.injEq, forall_eq', Value.toml_table, formatSchema_valid]
    constructor
    · rintro ⟨_, ⟨entries, rfl, rfl⟩, h⟩
      have h' : ∀ k v, entries.lookup k = some v → _ := fun k v hl =>
        option_valid.mp (h k v.toml (by rw [Value.lookup_toml, hl]; rfl))
      refine ⟨⟨entries, rfl, ?_, ?_⟩, ?_⟩
      · rw [Properties.valid_iff _ hnodup]
        intro k s v hk hl
        obtain ⟨⟨s', hs', hv⟩, _⟩ := h' k v hl
        rw [hk] at hs'; cases hs'; exact hv
      · intro e he
        obtain ⟨v, hv⟩ := lookup_of_mem he
        obtain ⟨⟨s, hs, _⟩, _⟩ := h' _ _ hv
        exact (hget _).mp ⟨s, hs⟩
      · rintro es he
        cases he
        exact ⟨fun k v hl => (h' k v hl).2.1, fun names hl => (h' _ _ hl).2.2 rfl names rfl⟩
    · rintro ⟨⟨entries, rfl, hp, hk⟩, hrest⟩
      obtain ⟨hn, hc⟩ := hrest entries rfl
      refine ⟨_, ⟨entries, rfl, rfl⟩, ?_⟩
      intro k v hl
      rw [Value.lookup_toml, Option.map_eq_some_iff] at hl
      obtain ⟨v, hl, rfl⟩ := hl
      rw [option_valid]
      obtain ⟨s, hs⟩ := (hget k).mpr (hk _ (lookup_mem hl))
      refine ⟨⟨s, hs, (Properties.valid_iff _ hnodup).mp hp k s v hs hl⟩, hn k v hl, ?_⟩
      rintro rfl names rfl
      exact hc names hl

/-- C84: what air accepts, an editor with the schema does not complain about. -/
theorem C84_accepted {compile : Path → List String → Option FilePatterns} {doc : List (String × Value)} {root : Path} {s : Settings}
    (h : load compile (Value.tomlEntries doc) root = some s) : airSchema.valid (.table doc) = true :=
  ((C84_exact compile doc root).mp ⟨s, h⟩).1

/-- C84 (disagreement): `line-width = 80.0` is valid for the schema, and air rejects the file. -/
theorem C84_float : ∃ doc : List (String × Value), airSchema.valid (.table doc) = true ∧
    ∀ compile root, load compile (Value.tomlEntries doc) root = none := by
  refine ⟨[("format", .table [("line-width", .float (some 80))])], by decide +kernel, fun _ _ => rfl⟩

/-- All options at once, and the schema tells mistakes: an option outside `[format]`, a width of 0, a style that does not exist. -/
example : airSchema.valid (.table [("format", .table [("line-width", .int 100), ("indent-width", .int 4), ("indent-style", .str "tab"),
      ("line-ending", .str "crlf"), ("persistent-line-breaks", .bool false), ("assignment-style", .str "equal"),
      ("exclude", .arr [.str "a/"]), ("default-exclude", .bool true), ("skip", .arr [.str "f"]), ("table", .arr []),
      ("default-table", .bool false)])]) = true ∧
    airSchema.valid (.table [("line-width", .int 100)]) = false ∧
    airSchema.valid (.table [("format", .table [("line-width", .int 0)])]) = false ∧
    airSchema.valid (.table [("format", .table [("indent-style", .str "tabs")])]) = false ∧
    airSchema.valid (.table [("format", .table [("skip", .str "f")])]) = false := by
  decide +kernel

/-- The hypotheses of `C84_exact` hold for such a document. -/
example (p : FilePatterns) : ∃ s, load (fun _ _ => some p) (Value.tomlEntries [("format", .table [("line-width", .int 100), ("exclude", .arr [.str "a/"])])])
    [] = some s := by
  rw [C84_exact]
  refine ⟨by decide +kernel, ?_⟩
  intro entries h
  simp only [List.lookup_cons, beq_self_eq_true, Option.some.injEq, Value.table.injEq] at h
  subst h
  refine ⟨?_, fun _ _ => ⟨_, rfl⟩⟩
  intro k v hl
  have := lookup_mem hl
  simp only [List.mem_cons, Prod.mk.injEq, List.not_mem_nil, or_false] at this
  rcases this with ⟨_, rfl⟩ | ⟨_, rfl⟩
  · simp [NoFloat]
  · exact noFloat_arr ["a/"]

end Verif.Settings
