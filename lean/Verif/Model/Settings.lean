import Verif.Model.FilePatterns
import Verif.Model.SortedStrings
import Verif.Model.LineEnding

/-!
# Settings (`crates/settings/src`, `crates/workspace/src/{settings,toml_options}.rs`)

The external TOML parser turns the text of an `air.toml` into a tree of values (`Toml`); this tree is
where the model starts. The serde derives are modelled by `deserialize`.
-/

namespace Verif.Settings

open Verif.Resolver (Path)
open Verif.FilePatterns
open Verif.LineEnding (Setting)

/-- A TOML value; floats and dates are `other`. (crate toml, external; crates/workspace/src/toml.rs:17-35) -/
inductive Toml
  | int (n : Int)
  | bool (b : Bool)
  | str (s : String)
  | arr (items : List Toml)
  | table (entries : List (String × Toml))
  | other

/-- `IndentStyle` (crates/settings/src/indent_style.rs:11-17). -/
inductive IndentStyle | tab | space
  deriving DecidableEq, Repr

/-- `AssignmentStyle` (crates/settings/src/assignment_style.rs:11-25). -/
inductive AssignmentStyle | arrow | equal | preserve
  deriving DecidableEq, Repr

/-- `PersistentLineBreaks` (crates/settings/src/persistent_line_breaks.rs:6-12). -/
inductive PersistentLineBreaks | respect | ignore
  deriving DecidableEq, Repr

/-- `LineWidth::try_from` (crates/settings/src/line_width.rs:64-85) on a `u16`. -/
def lineWidthTryFrom (n : Nat) : Option Nat :=
  if n = 0 then none else if n ≤ 320 then some n else none

/-- `IndentWidth::try_from` (crates/settings/src/indent_width.rs:64-95) on a `u8`. -/
def indentWidthTryFrom (n : Nat) : Option Nat :=
  if n = 0 then none else if n ≤ 24 then some n else none

/-- Deserialising an unsigned integer of the given exclusive bound. (serde, external;
crates/settings/src/indent_width.rs:48-58, crates/settings/src/line_width.rs:48-58) -/
def Toml.uint (bound : Nat) : Toml → Option Nat
  | .int n => if 0 ≤ n ∧ n < bound then some n.toNat else none
  | _ => none

/-- Deserialising a `bool` (serde, external; crates/workspace/src/toml_options.rs:36-235). -/
def Toml.bool? : Toml → Option Bool
  | .bool b => some b
  | _ => none

/-- Deserialising a `String` (serde, external; crates/workspace/src/toml_options.rs:36-235). -/
def Toml.str? : Toml → Option String
  | .str s => some s
  | _ => none

/-- All elements must be strings. (serde, external; crates/settings/src/sorted_strings.rs:60-68) -/
def strs? : List Toml → Option (List String)
  | [] => some []
  | .str s :: rest => (strs? rest).map (s :: ·)
  | _ :: _ => none

/-- Deserialising a `Vec<String>` (serde, external; crates/workspace/src/toml_options.rs:36-235). -/
def Toml.strs? : Toml → Option (List String)
  | .arr items => Settings.strs? items
  | _ => none

/-- `Deserialize for LineWidth` (line_width.rs:47-56). -/
def deLineWidth (v : Toml) : Option Nat := (v.uint 65536).bind lineWidthTryFrom

/-- `Deserialize for IndentWidth` (indent_width.rs:46-56). -/
def deIndentWidth (v : Toml) : Option Nat := (v.uint 256).bind indentWidthTryFrom

/-- Derived `Deserialize for IndentStyle` (`rename_all = "kebab-case"`).
(crates/settings/src/indent_style.rs:9-18) -/
def deIndentStyle (v : Toml) : Option IndentStyle :=
  v.str?.bind fun s => if s = "tab" then some .tab else if s = "space" then some .space else none

/-- Derived `Deserialize for LineEnding` (crates/workspace/src/settings/line_ending.rs:10-28). -/
def deLineEnding (v : Toml) : Option Setting :=
  v.str?.bind fun s =>
    if s = "auto" then some .auto else if s = "lf" then some .lf
    else if s = "crlf" then some .crlf else if s = "native" then some .native else none

/-- Derived `Deserialize for AssignmentStyle`. (crates/settings/src/assignment_style.rs:9-20) -/
def deAssignmentStyle (v : Toml) : Option AssignmentStyle :=
  v.str?.bind fun s =>
    if s = "arrow" then some .arrow else if s = "equal" then some .equal
    else if s = "preserve" then some .preserve else none

/-- `FormatTomlOptions` (toml_options.rs:53-235). -/
structure FormatOptions where
  lineWidth : Option Nat := none
  indentWidth : Option Nat := none
  indentStyle : Option IndentStyle := none
  lineEnding : Option Setting := none
  persistentLineBreaks : Option Bool := none
  assignmentStyle : Option AssignmentStyle := none
  exclude : Option (List String) := none
  defaultExclude : Option Bool := none
  skip : Option (List String) := none
  table : Option (List String) := none
  defaultTable : Option Bool := none
  deriving DecidableEq, Repr

/-- The field names of `FormatTomlOptions` in kebab case. (crates/workspace/src/toml_options.rs:53-235) -/
def formatKeys : List String :=
  ["line-width", "indent-width", "indent-style", "line-ending", "persistent-line-breaks",
   "assignment-style", "exclude", "default-exclude", "skip", "table", "default-table"]

/-- An optional field: absent gives `None`, present must deserialise. (serde, external;
crates/workspace/src/toml_options.rs:36-235) -/
def field {α : Type} (entries : List (String × Toml)) (key : String) (de : Toml → Option α) :
    Option (Option α) :=
  match entries.lookup key with
  | none => some none
  | some v => (de v).map some

/-- Derived `Deserialize for FormatTomlOptions` (toml_options.rs:50-53, `deny_unknown_fields`). -/
def deFormat : Toml → Option FormatOptions
  | .table entries =>
    if entries.all fun e => formatKeys.contains e.1 then do
      let lineWidth ← field entries "line-width" deLineWidth
      let indentWidth ← field entries "indent-width" deIndentWidth
      let indentStyle ← field entries "indent-style" deIndentStyle
      let lineEnding ← field entries "line-ending" deLineEnding
      let persistentLineBreaks ← field entries "persistent-line-breaks" Toml.bool?
      let assignmentStyle ← field entries "assignment-style" deAssignmentStyle
      let exclude ← field entries "exclude" Toml.strs?
      let defaultExclude ← field entries "default-exclude" Toml.bool?
      -- `Skip`/`Table` sort the names when deserialised (sorted_strings.rs:59-67)
      let skip ← field entries "skip" fun v => v.strs?.map SortedStrings.new
      let table ← field entries "table" fun v => v.strs?.map SortedStrings.new
      let defaultTable ← field entries "default-table" Toml.bool?
      some { lineWidth, indentWidth, indentStyle, lineEnding, persistentLineBreaks,
             assignmentStyle, exclude, defaultExclude, skip, table, defaultTable }
    else none
  | _ => none

/-- Derived `Deserialize for TomlOptions` (toml_options.rs:33-47): the only key is `format`. -/
def deserialize (entries : List (String × Toml)) : Option (Option FormatOptions) :=
  if entries.all fun e => e.1 == "format" then field entries "format" deFormat else none

/-- `FormatSettings` (settings.rs:33-45). `Settings` has this as its only field. -/
structure Settings where
  indentStyle : IndentStyle
  indentWidth : Nat
  lineEnding : Setting
  lineWidth : Nat
  persistentLineBreaks : PersistentLineBreaks
  assignmentStyle : AssignmentStyle
  exclude : Option FilePatterns
  defaultExclude : Option DefaultFilePatterns
  defaultInclude : Option DefaultFilePatterns
  skip : Option (List String)
  table : Option (List String)

/-- `DEFAULT_TABLE` (crates/workspace/src/settings/default_table.rs:5-10). -/
def defaultTable : List String := SortedStrings.new ["tribble", "fcase"]

/-- `Default for FormatSettings` (settings.rs:47-67) with the defaults of the field types
(line_width.rs:17,28-32; indent_width.rs:17,28-32; `#[default]` attributes). -/
def Settings.default : Settings where
  indentStyle := .space
  indentWidth := 2
  lineEnding := .auto
  lineWidth := 80
  persistentLineBreaks := .respect
  assignmentStyle := .arrow
  exclude := none
  defaultExclude := some FilePatterns.defaultExclude
  defaultInclude := some FilePatterns.defaultInclude
  skip := none
  table := some Settings.defaultTable

/-- `TomlOptions::into_settings` (toml_options.rs:238-286). `compile root patterns` is the external
`GitignoreBuilder`, which rejects malformed globs. -/
def intoSettings (compile : Path → List String → Option FilePatterns)
    (options : Option FormatOptions) (root : Path) : Option Settings :=
  let format := options.getD {}
  let table :=
    if format.defaultTable.getD true then
      some (match format.table with
        | some table => SortedStrings.merge table defaultTable
        | none => defaultTable)
    else format.table
  let exclude : Option (Option FilePatterns) :=
    match format.exclude with
    | some patterns => (compile root patterns).map some
    | none => some none
  exclude.map fun exclude =>
    { indentStyle := format.indentStyle.getD .space
      indentWidth := format.indentWidth.getD 2
      lineEnding := format.lineEnding.getD .auto
      lineWidth := format.lineWidth.getD 80
      persistentLineBreaks :=
        match format.persistentLineBreaks with
        | some b => if b then .respect else .ignore
        | none => .respect
      assignmentStyle := format.assignmentStyle.getD .arrow
      exclude
      defaultExclude :=
        match format.defaultExclude.getD true with
        | true => some FilePatterns.defaultExclude
        | false => none
      defaultInclude := some FilePatterns.defaultInclude
      skip := format.skip
      table }

end Verif.Settings
