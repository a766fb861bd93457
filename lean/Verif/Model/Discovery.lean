import Verif.Model.Settings

/-!
# Settings and file discovery (`crates/workspace/src/{toml,discovery}.rs`)
-/

namespace Verif.Discovery

open Verif.Resolver (Path Resolver)
open Verif.FilePatterns
open Verif.Settings (Settings Toml)

/-- The part of the file system the search for configuration files looks at. `readToml` is
`parse_air_toml` up to deserialisation (toml.rs:17-28): `none` for unreadable files and TOML syntax
errors. -/
structure Disk where
  isFile : Path → Bool
  readToml : Path → Option (List (String × Toml))

/-- `find_air_toml_in_directory` (toml.rs:54-69). -/
def findAirTomlInDirectory (disk : Disk) (dir : Path) : Option Path :=
  if disk.isFile (dir ++ ["air.toml"]) then some (dir ++ ["air.toml"])
  else if disk.isFile (dir ++ [".air.toml"]) then some (dir ++ [".air.toml"])
  else none

/-- `find_air_toml` (toml.rs:72-79). -/
def findAirToml (disk : Disk) (path : Path) : Option Path :=
  (ancestors path).findSome? (findAirTomlInDirectory disk)

/-- `is_air_toml` (toml.rs:84-87): `Path::ends_with` compares the last component. -/
def isAirToml (path : Path) : Bool :=
  path.getLast? == some "air.toml" || path.getLast? == some ".air.toml"

/-- `parse_settings` (discovery.rs:80-84); `none` is an error. -/
def parseSettings (compile : Path → List String → Option FilePatterns) (disk : Disk)
    (toml : Path) (root : Path) : Option Settings :=
  (disk.readToml toml).bind fun doc =>
    (Settings.deserialize doc).bind fun options => Settings.intoSettings compile options root

/-- The inner loop of `discover_settings` (discovery.rs:44-60), over the ancestors of one path. State:
the directories seen and the settings discovered so far. -/
def visitAncestors (find : Path → Option Path) (parse : Path → Path → Option Settings) :
    List Path → List Path → List (Path × Settings) →
      Option (List Path × List (Path × Settings))
  | [], seen, acc => some (seen, acc)
  | a :: rest, seen, acc =>
    if seen.contains a then some (seen, acc)
    else
      match find a with
      | some toml =>
        match parse toml a with
        | none => none
        | some settings => some (a :: seen, acc ++ [(a, settings)])
      | none => visitAncestors find parse rest (a :: seen) acc

/-- The outer loop of `discover_settings` (discovery.rs:43-61). -/
def discoverGo (find : Path → Option Path) (parse : Path → Path → Option Settings) :
    List Path → List Path → List (Path × Settings) → Option (List (Path × Settings))
  | [], _, acc => some acc
  | p :: ps, seen, acc =>
    match visitAncestors find parse (ancestors p) seen acc with
    | none => none
    | some (seen, acc) => discoverGo find parse ps seen acc

/-- `discover_settings` (discovery.rs:36-74), on absolute paths (`fs::normalize_path` is applied to
the paths by the caller of the model). -/
def discoverSettings (compile : Path → List String → Option FilePatterns) (disk : Disk)
    (paths : List Path) : Option (List (Path × Settings)) :=
  discoverGo (findAirTomlInDirectory disk) (parseSettings compile disk) paths [] []

/-- The resolver filled by the callers (crates/air/src/commands/format/paths.rs:41-49,
stdin.rs:46-54). -/
def buildResolver (discovered : List (Path × Settings)) : Resolver Settings :=
  discovered.foldl (fun r d => (Resolver.add r d.1 d.2).1) (Resolver.new Settings.default)

/-! ## Files -/

/-- `Exclude` (discovery.rs:98-105). -/
inductive Exclude | matched | nothing
  deriving DecidableEq, Repr

/-- `Include` (discovery.rs:107-114). -/
inductive Include | matched | everything
  deriving DecidableEq, Repr

/-- `any_exclude_matched_path` (discovery.rs:391-410). -/
def anyExcludeMatchedPath (path : Path) (isDir : Bool) (s : Settings) : Bool :=
  (match s.exclude with
    | some e => e.matched path isDir
    | none => false) ||
  (match s.defaultExclude with
    | some e => e.matched path isDir
    | none => false)

/-- `any_exclude_matched_path_or_any_parents` (discovery.rs:416-437). The outer `none` is a panic of
the gitignore matcher. -/
def anyExcludeMatchedPathOrAnyParents (path : Path) (isDir : Bool) (s : Settings) : Option Bool :=
  let byDefault := match s.defaultExclude with
    | some e => e.matchedPathOrAnyParents path isDir
    | none => false
  match s.exclude with
  | some e => (e.matchedPathOrAnyParents path isDir).map fun b => b || byDefault
  | none => some byDefault

/-- `any_include_matched_path` (discovery.rs:443-452). -/
def anyIncludeMatchedPath (path : Path) (s : Settings) : Bool :=
  match s.defaultInclude with
  | some i => i.matched path false
  | none => false

/-- What is found at a path: a file (anything that is not a directory), a directory with its
entries, or an error of the walker (unreadable entry, missing path). (the input of `WalkBuilder`,
crates/workspace/src/discovery.rs:121-170; a file tree is external) -/
inductive Node
  | file
  | dir (children : List (String × Node))
  | error

/-- `DirEntry::file_type` says that it is a directory (crates/workspace/src/discovery.rs:272-300; external). -/
def Node.isDir : Node → Bool
  | .dir _ => true
  | _ => false

/-- An item of the result: a discovered file or an error of the walker at a path. (`DiscoveredFiles`,
crates/workspace/src/discovery.rs:172-203) -/
inductive Found | file (path : Path) | error (path : Path)
  deriving DecidableEq, Repr

/-- One entry the walker hands to a visitor. (`visit` gets a `Result<DirEntry, ignore::Error>`,
crates/workspace/src/discovery.rs:253) -/
structure Entry where
  path : Path
  depth : Nat
  node : Node

/-- `FilesVisitor::visit`, `visit_format` (discovery.rs:253-369): what is pushed to the files of the
thread, and whether the walk continues below the entry (`WalkState::Continue`). A panic of the
matcher is counted as "not excluded" here; `C17_no_panic` shows that it does not happen. -/
def visit (resolver : Resolver Settings) (exclude : Exclude) (incl : Include) (e : Entry) :
    List Found × Bool :=
  match e.node with
  | .error => ([.error e.path], true)
  | _ =>
    let settings := Resolver.resolveOrFallback resolver e.path
    let excluded :=
      match exclude with
      | .matched =>
        if e.depth = 0 then
          anyExcludeMatchedPathOrAnyParents e.path e.node.isDir settings == some true
        else anyExcludeMatchedPath e.path e.node.isDir settings
      | .nothing => false
    if excluded then ([], false)
    else if e.node.isDir then ([], true)
    else
      match incl with
      | .matched =>
        if anyIncludeMatchedPath e.path settings then ([.file e.path], true) else ([], true)
      | .everything => ([.file e.path], true)

/-- The entries below a directory that the `ignore` walker yields: those not dropped by its own filters
(hidden files, .gitignore; discovery.rs:147-152), abstracted by `dropped`. -/
def below (dropped : Path → Bool → Bool) (e : Entry) : List Entry :=
  match e.node with
  | .dir children =>
    (children.filter fun c => !dropped (e.path ++ [c.1]) c.2.isDir).map fun c =>
      ⟨e.path ++ [c.1], e.depth + 1, c.2⟩
  | _ => []

/-- State of the parallel walk: entries not yet visited, and the files of each thread.
(crates/workspace/src/discovery.rs:172-180, 230-251) -/
structure Walk where
  pending : List Entry
  threads : List (List Found)

/-- One step: some thread takes some pending entry, visits it, and (unless the visitor said `Skip`)
puts the entries below it on the pile (`WalkParallel::visit` with the visitors of
discovery.rs:215-268). -/
inductive Step (resolver : Resolver Settings) (exclude : Exclude) (incl : Include)
    (dropped : Path → Bool → Bool) : Walk → Walk → Prop
  | mk (before after : List Entry) (e : Entry) (left right : List (List Found)) (own : List Found) :
    Step resolver exclude incl dropped
      ⟨before ++ e :: after, left ++ own :: right⟩
      ⟨before ++ after ++
        (if (visit resolver exclude incl e).2 then below dropped e else []),
       left ++ (own ++ (visit resolver exclude incl e).1) :: right⟩

/-- Any number of steps. (executions of the walk of crates/workspace/src/discovery.rs:121-170; the scheduling is
external) -/
inductive Steps (resolver : Resolver Settings) (exclude : Exclude) (incl : Include)
    (dropped : Path → Bool → Bool) : Walk → Walk → Prop
  | refl (w : Walk) : Steps resolver exclude incl dropped w w
  | tail {a b c : Walk} : Steps resolver exclude incl dropped a b →
      Step resolver exclude incl dropped b c → Steps resolver exclude incl dropped a c

/-- `Drop for FilesVisitor` (discovery.rs:372-385): a thread's files are transferred to the shared
list. -/
def transfer (files own : List Found) : List Found :=
  if files.isEmpty then own else files ++ own

/-- `discover_r_file_paths` (discovery.rs:121-169) as a relation: some number of threads, some
schedule, and some order in which the threads finish. -/
def DiscoverFiles (resolver : Resolver Settings) (exclude : Exclude) (incl : Include)
    (dropped : Path → Bool → Bool) (roots : List (Path × Node)) (result : List Found) : Prop :=
  ∃ (n : Nat) (final : Walk) (finishing : List (List Found)),
    Steps resolver exclude incl dropped
      ⟨roots.map fun r => ⟨r.1, 0, r.2⟩, List.replicate n []⟩ final ∧
    final.pending = [] ∧ finishing.Perm final.threads ∧ result = finishing.foldl transfer []

end Verif.Discovery
