/-!
# Paths given by the user

`fs::normalize_path` and `fs::relativize_path` (crates/fs/src/lib.rs:16-40), for Unix. `path_absolutize::Absolutize` and
`std::path::Path::components` are transcribed from their published sources and documentation.
-/

namespace Verif.Paths

/-- The name of a file or directory. (external; crates/fs/src/lib.rs:18-25) -/
abbrev Name := List Char

/-- `std::path::Component`. (external; crates/fs/src/lib.rs:20) -/
inductive Comp | root | cur | up | name (s : Name)
  deriving DecidableEq, Repr

/-- `str::split('/')`. (external, inside of `Path::components`; crates/fs/src/lib.rs:20) -/
def splitSlash (acc : List Char) : List Char → List Name
  | [] => [acc.reverse]
  | c :: cs => if c = '/' then acc.reverse :: splitSlash [] cs else splitSlash (c :: acc) cs

/-- A part of a path that is not the first one: empty parts and `.` are left out. (external, inside of
`Path::components`; crates/fs/src/lib.rs:20) -/
def component (s : Name) : Option Comp :=
  if s = [] ∨ s = ['.'] then none else if s = ['.', '.'] then some .up else some (.name s)

/-- `Path::components`: `.` counts at the beginning of a relative path only. (external; crates/fs/src/lib.rs:20) -/
def components (p : List Char) : List Comp :=
  if p.head? = some '/' then .root :: (splitSlash [] p).filterMap component
  else match splitSlash [] p with
    | f :: rest => (if f = ['.'] then [.cur] else (component f).toList) ++ rest.filterMap component
    | [] => []

/-- The loop of `absolutize` over the components after the first one; the names so far, without the root, which is never
removed. (external; crates/fs/src/lib.rs:20) -/
def step (names : List Name) : Comp → List Name
  | .name s => names ++ [s]
  | .up => names.dropLast
  | _ => names

/-- `fs::normalize_path` (crates/fs/src/lib.rs:18-25), as the names below the root. `cwd`: the current directory, which is
read once (feature `once_cell_cache`), so that `absolutize` does not fail. Simplification: paths are compared by their
components, hence spare slashes that `absolutize` leaves in an absolute path do not matter. -/
def normalize (cwd : List Name) (p : List Char) : List Name :=
  match components p with
  | [] => cwd
  | first :: rest =>
    let names := match first with
      | .root => []
      | .cur => cwd
      | .up => cwd.dropLast
      | .name s => cwd ++ [s]
    rest.foldl step names

/-- Names with slashes in between. (external; `Path::display`, crates/fs/src/lib.rs:37) -/
def join : List Name → List Char
  | [] => []
  | [s] => s
  | s :: t :: ss => s ++ '/' :: join (t :: ss)

/-- An absolute path as text. (external; `Path::display`, crates/fs/src/lib.rs:39) -/
def render (names : List Name) : List Char := '/' :: join names

/-- `fs::relativize_path` (crates/fs/src/lib.rs:28-40): what messages show. -/
def relativize (cwd path : List Name) : List Char :=
  if cwd.isPrefixOf path then join (path.drop cwd.length) else render path

end Verif.Paths
