import Verif.Model.Settings

/-!
# The published schema of configuration files

artifacts/air.schema.json, which editors use to check and complete `air.toml`; it is written by xtask/json_schema/src/main.rs. JSON
Schema (draft 2020-12) is not part of the repository: what the keywords mean is taken from its documents. `$ref` to a definition is
replaced by the definition; titles, descriptions and `format` do not affect validity and are left out.
-/

namespace Verif.Settings

/-- A TOML value with all that a schema can tell apart. A float has its integer value if it is one (`80.0`); dates are strings
for a schema. (crate toml, external; artifacts/air.schema.json) -/
inductive Value
  | int (n : Int)
  | float (integral : Option Int)
  | date (text : String)
  | bool (b : Bool)
  | str (s : String)
  | arr (items : List Value)
  | table (entries : List (String × Value))

mutual
/-- The value as air reads it (crate toml, external; crates/workspace/src/toml.rs:17-35). -/
def Value.toml : Value → Toml
  | .int n => .int n
  | .float _ => .other
  | .date _ => .other
  | .bool b => .bool b
  | .str s => .str s
  | .arr items => .arr (Value.tomls items)
  | .table entries => .table (Value.tomlEntries entries)
/-- The same for the elements of an array. (crates/workspace/src/toml.rs:17-35) -/
def Value.tomls : List Value → List Toml
  | [] => []
  | v :: vs => v.toml :: Value.tomls vs
/-- The same for the entries of a table. (crates/workspace/src/toml.rs:17-35) -/
def Value.tomlEntries : List (String × Value) → List (String × Toml)
  | [] => []
  | (k, v) :: es => (k, v.toml) :: Value.tomlEntries es
end

/-- The values of the keyword `type` that occur (artifacts/air.schema.json). -/
inductive Ty
  | object | string | boolean | integer | array | null
  deriving DecidableEq

/-- A value is of a type. An integer is a number without a fraction: `80.0` is one. (JSON Schema, external;
artifacts/air.schema.json) -/
def Ty.has : Ty → Value → Bool
  | .object, .table _ => true
  | .string, .str _ => true
  | .string, .date _ => true
  | .boolean, .bool _ => true
  | .integer, .int _ => true
  | .integer, .float (some _) => true
  | .array, .arr _ => true
  | _, _ => false

/-- The number that a value is, if it has no fraction (artifacts/air.schema.json). -/
def Value.number? : Value → Option Int
  | .int n => some n
  | .float n => n
  | _ => none

mutual
/-- A schema (JSON Schema, external; artifacts/air.schema.json). Keywords of the same schema are joined by `and`. -/
inductive Schema
  | and (a b : Schema)
  | type (ts : List Ty)
  | const (s : String)
  | minimum (n : Int)
  | maximum (n : Int)
  | items (s : Schema)
  | properties (ps : Properties) (additional : Bool)
  | anyOf (ss : Schemas)
  | oneOf (ss : Schemas)
/-- An array of schemas (artifacts/air.schema.json). -/
inductive Schemas
  | nil | cons (s : Schema) (ss : Schemas)
/-- `properties` (artifacts/air.schema.json). -/
inductive Properties
  | nil | cons (name : String) (s : Schema) (ps : Properties)
end

/-- The names of the properties (artifacts/air.schema.json). -/
def Properties.names : Properties → List String
  | .nil => []
  | .cons n _ ps => n :: ps.names

mutual
/-- A value is valid (JSON Schema, external; artifacts/air.schema.json). Keywords say nothing about values of other types.
`minimum` and `maximum` are only used together with `integer`. -/
def Schema.valid : Schema → Value → Bool
  | .and a b, v => a.valid v && b.valid v
  | .type ts, v => ts.any (·.has v)
  | .const s, v => match v with | .str t => s = t | .date t => s = t | _ => false
  | .minimum n, v => v.number?.all (n ≤ ·)
  | .maximum n, v => v.number?.all (· ≤ n)
  | .items s, v => match v with | .arr items => items.all s.valid | _ => true
  | .properties ps additional, v =>
    match v with
    | .table entries => ps.valid entries && (additional || entries.all fun e => ps.names.contains e.1)
    | _ => true
  | .anyOf ss, v => 1 ≤ ss.count v
  | .oneOf ss, v => ss.count v = 1
/-- How many of the schemas the value is valid for (JSON Schema, external; artifacts/air.schema.json). -/
def Schemas.count : Schemas → Value → Nat
  | .nil, _ => 0
  | .cons s ss, v => (if s.valid v then 1 else 0) + ss.count v
/-- All properties that are there are valid (JSON Schema, external; artifacts/air.schema.json). -/
def Properties.valid : Properties → List (String × Value) → Bool
  | .nil, _ => true
  | .cons n s ps, entries => (entries.lookup n).all s.valid && ps.valid entries
end

/-- A string of some strings (artifacts/air.schema.json:20-39, 166-179, 186-209). -/
def choices : List String → Schemas
  | [] => .nil
  | s :: ss => .cons (.and (.type [.string]) (.const s)) (choices ss)

/-- `anyOf` a schema and `null` (artifacts/air.schema.json:7-16 and all optional fields). -/
def orNull (s : Schema) : Schema := .anyOf (.cons s (.cons (.type [.null]) .nil))

/-- `$defs/LineWidth`, `$defs/IndentWidth` (artifacts/air.schema.json:180-185, 210-215). -/
def width (max : Int) : Schema := .and (.type [.integer]) (.and (.maximum max) (.minimum 1))

/-- `$defs/SortedStrings`, to which `Skip` and `Table` refer (artifacts/air.schema.json:216-227). -/
def sortedStrings : Schema := .and (.type [.array]) (.items (.type [.string]))

/-- `$defs/FormatTomlOptions` (artifacts/air.schema.json:40-165). -/
def formatSchema : Schema :=
  .and (.type [.object]) (.properties
    (.cons "assignment-style" (orNull (.oneOf (choices ["arrow", "equal", "preserve"]))) <|
     .cons "default-exclude" (.type [.boolean, .null]) <|
     .cons "default-table" (.type [.boolean, .null]) <|
     .cons "exclude" (.and (.type [.array, .null]) (.items (.type [.string]))) <|
     .cons "indent-style" (orNull (.oneOf (choices ["tab", "space"]))) <|
     .cons "indent-width" (orNull (width 24)) <|
     .cons "line-ending" (orNull (.oneOf (choices ["auto", "lf", "crlf", "native"]))) <|
     .cons "line-width" (orNull (width 320)) <|
     .cons "persistent-line-breaks" (.type [.boolean, .null]) <|
     .cons "skip" (orNull sortedStrings) <|
     .cons "table" (orNull sortedStrings) .nil) false)

/-- The schema (artifacts/air.schema.json:1-18). -/
def airSchema : Schema := .and (.type [.object]) (.properties (.cons "format" (orNull formatSchema) .nil) false)

end Verif.Settings
