import Verif.Model.Settings

/-!
# Specification of the configuration file (docs/configuration.qmd, doc comments of toml_options.rs)
-/

namespace Verif.Settings

open Verif.Resolver (Path)
open Verif.FilePatterns

/-- The options documented for the `[format]` table, with the values documented as valid.
`compiles` says which exclude lists are well-formed gitignore patterns. -/
def ValidOption (compiles : List String → Prop) : String → Toml → Prop
  | "line-width", v => ∃ n : Nat, v = .int n ∧ 1 ≤ n ∧ n ≤ 320
  | "indent-width", v => ∃ n : Nat, v = .int n ∧ 1 ≤ n ∧ n ≤ 24
  | "indent-style", v => v = .str "tab" ∨ v = .str "space"
  | "line-ending", v => v = .str "auto" ∨ v = .str "lf" ∨ v = .str "crlf" ∨ v = .str "native"
  | "persistent-line-breaks", v => ∃ b, v = .bool b
  | "assignment-style", v => v = .str "arrow" ∨ v = .str "equal" ∨ v = .str "preserve"
  | "exclude", v => ∃ names : List String, v = .arr (names.map .str) ∧ compiles names
  | "default-exclude", v => ∃ b, v = .bool b
  | "skip", v => ∃ names : List String, v = .arr (names.map .str)
  | "table", v => ∃ names : List String, v = .arr (names.map .str)
  | "default-table", v => ∃ b, v = .bool b
  | _, _ => False

/-- A setting determined by one option: its default if the option is absent, else the value given. -/
def Determined {α : Type} (value : Option Toml) (dflt : α) (means : Toml → α → Prop) (a : α) : Prop :=
  match value with
  | none => a = dflt
  | some v => means v a

/-- The function names an optional list option mentions. -/
def Names (value : Option Toml) (name : String) : Prop :=
  ∃ names : List String, value = some (.arr (names.map .str)) ∧ name ∈ names

/-- The settings documented for the options of a `[format]` table. -/
structure Documented (compile : Path → List String → Option FilePatterns) (root : Path)
    (opt : String → Option Toml) (s : Settings) : Prop where
  lineWidth : Determined (opt "line-width") 80 (fun v (n : Nat) => v = .int n) s.lineWidth
  indentWidth : Determined (opt "indent-width") 2 (fun v (n : Nat) => v = .int n) s.indentWidth
  indentStyle : Determined (opt "indent-style") .space
    (fun v a => v = .str "tab" ∧ a = .tab ∨ v = .str "space" ∧ a = .space) s.indentStyle
  lineEnding : Determined (opt "line-ending") .auto
    (fun v a => v = .str "auto" ∧ a = .auto ∨ v = .str "lf" ∧ a = .lf ∨ v = .str "crlf" ∧ a = .crlf ∨
      v = .str "native" ∧ a = .native) s.lineEnding
  persistentLineBreaks : Determined (opt "persistent-line-breaks") .respect
    (fun v a => v = .bool true ∧ a = .respect ∨ v = .bool false ∧ a = .ignore)
    s.persistentLineBreaks
  assignmentStyle : Determined (opt "assignment-style") .arrow
    (fun v a => v = .str "arrow" ∧ a = .arrow ∨ v = .str "equal" ∧ a = .equal ∨
      v = .str "preserve" ∧ a = .preserve) s.assignmentStyle
  exclude : Determined (opt "exclude") none
    (fun v a => ∃ (names : List String) (p : FilePatterns), v = .arr (names.map .str) ∧ compile root names = some p ∧ a = some p)
    s.exclude
  defaultExclude : Determined (opt "default-exclude") (some FilePatterns.defaultExclude)
    (fun v a => v = .bool true ∧ a = some FilePatterns.defaultExclude ∨ v = .bool false ∧ a = none)
    s.defaultExclude
  defaultInclude : s.defaultInclude = some FilePatterns.defaultInclude
  skip : ∀ name, (∃ l, s.skip = some l ∧ SortedStrings.contains l name = true) ↔
    Names (opt "skip") name
  table : ∀ name, (∃ l, s.table = some l ∧ SortedStrings.contains l name = true) ↔
    Names (opt "table") name ∨
      opt "default-table" ≠ some (.bool false) ∧ (name = "tribble" ∨ name = "fcase")

end Verif.Settings
