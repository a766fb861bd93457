import Verif.Model.Sort
import Verif.Model.BinarySearch

/-!
# Function name lists (`crates/settings/src/{sorted_strings,skip,table}.rs`)

Rust compares strings by their UTF-8 bytes, Lean by code points; these orders coincide.
-/

namespace Verif.SortedStrings

/-- `SortedStrings::new` (sorted_strings.rs:25-28). `sort_unstable` on a total order whose equal
elements are identical has the same result as a stable sort. -/
def new (strings : List String) : List String :=
  Sort.stableSort (fun a b => compare a b != .gt) strings

/-- `SortedStrings::contains` (sorted_strings.rs:36-40); also `Skip::contains` (skip.rs:20-22) and
`Table::contains` (table.rs:20-22). -/
def contains (s : List String) (name : String) : Bool :=
  match BinarySearch.binarySearchBy s (fun probe => compare probe name) with
  | .ok _ => true
  | .error _ => false

/-- `Table::merge` (table.rs:24-28). -/
def merge (self table : List String) : List String := new (self ++ table)

/-- `Display` (sorted_strings.rs:43-56): all but the last followed by a separator. -/
def display : List String → String
  | [] => ""
  | [a] => a
  | a :: rest => a ++ ", " ++ display rest

end Verif.SortedStrings
