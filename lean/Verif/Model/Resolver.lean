import Verif.Model.BinarySearch

/-!
# Path resolver (`crates/workspace/src/resolve.rs`)

A `PathBuf` is modelled by the list of its components (`Path::cmp`, `Path::starts_with` and `==` are
defined component-wise in the standard library); the root directory counts as a component.
-/

namespace Verif.Resolver

/-- An absolute path by its components (std, external; crates/workspace/src/resolve.rs:18-34). -/
abbrev Path := List String

/-- `PathItem` (resolve.rs:27-33). -/
structure Item (T : Type) where
  path : Path
  value : T
  deriving DecidableEq, Repr

/-- `PathResolver` (resolve.rs:18-24). -/
structure Resolver (T : Type) where
  fallback : T
  items : List (Item T)

variable {T : Type}

/-- `PathResolver::new` (resolve.rs:51-56). -/
def new (fallback : T) : Resolver T := { fallback, items := [] }

/-- The search of `add`/`remove` (resolve.rs:74, 97-99). -/
def search (items : List (Item T)) (path : Path) : Except Nat Nat :=
  BinarySearch.binarySearchBy items fun item => compare item.path path

/-- `PathResolver::add` (resolve.rs:71-89). -/
def add (r : Resolver T) (path : Path) (value : T) : Resolver T × Option T :=
  match search r.items path with
  | .ok i =>
    match r.items[i]? with
    | some old => ({ r with items := r.items.set i { old with value } }, some old.value)
    | none => (r, none)  -- unreachable: a found index is in bounds
  | .error i => ({ r with items := r.items.insertIdx i { path, value } }, none)

/-- `PathResolver::remove` (resolve.rs:94-111). -/
def remove (r : Resolver T) (path : Path) : Resolver T × Option T :=
  match search r.items path with
  | .ok i => ({ r with items := r.items.eraseIdx i }, (r.items[i]?).map Item.value)
  | .error _ => (r, none)

/-- `PathResolver::clear` (resolve.rs:125-127). -/
def clear (r : Resolver T) : Resolver T := { r with items := [] }

/-- `Path::starts_with`: component-wise prefix. (std, external; crates/workspace/src/resolve.rs:170-182) -/
def startsWith (path dir : Path) : Bool := dir.isPrefixOf path

/-- `PathResolver::resolve` (resolve.rs:148-155). -/
def resolve (r : Resolver T) (path : Path) : Option (Item T) :=
  r.items.reverse.find? fun item => startsWith path item.path

/-- `PathResolver::resolve_or_fallback` (resolve.rs:159-162). -/
def resolveOrFallback (r : Resolver T) (path : Path) : T :=
  match resolve r path with
  | some item => item.value
  | none => r.fallback

/-- `PathResolver::matches` (resolve.rs:170-176). -/
def «matches» (r : Resolver T) (path : Path) : List (Item T) :=
  r.items.filter fun item => startsWith path item.path

/-- `matches_mut` (resolve.rs:184-193) used with a function that changes the values. -/
def matchesMut (r : Resolver T) (path : Path) (f : Item T → T) : Resolver T :=
  { r with items := r.items.map fun item =>
      if startsWith path item.path then { item with value := f item } else item }

end Verif.Resolver
