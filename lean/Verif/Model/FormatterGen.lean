import Verif.Model.RGrammar

/-!
# The generator of the formatter's modules

xtask/codegen/src/formatter.rs: what `cargo codegen formatter` writes to, deletes from and stages in a working tree. The texts that
are written for a node, and the reformatting of texts, are parameters. Errors of the file system are not modelled.
-/

namespace Verif.FormatterGen

open Verif.Ungrammar (Name Def)

/-- A path: its components from the last one to the first one, so that the tail is `Path::parent`. (formatter.rs:5) -/
abbrev RPath := List Name

/-- Bits of `git2::Status`: `INDEX_*` are about the index, the others are not. (formatter.rs:56-70) -/
inductive Flag
  | index | other
  deriving DecidableEq, Repr

/-- An entry of `Repository::statuses`: its path below the root, if it is in UTF-8, and its bits. (formatter.rs:53-55) -/
structure Entry where
  path : Option RPath
  flags : List Flag
  deriving DecidableEq, Repr

/-- `GitRepo` (formatter.rs:17-22), without the repository itself. -/
structure Repo where
  allowStaged : Bool
  staged : List RPath
  dirty : List RPath
  deriving DecidableEq, Repr

/-- `GitRepo::open` (formatter.rs:25-80). A status is compared with constants as a whole: a file with two bits is never staged. -/
def Repo.open (args : List Name) (root : RPath) (statuses : List Entry) : Repo :=
  let allowStaged := args.contains "--allow-staged".toList
  let allowDirty := args.contains "--allow-dirty".toList
  let paths (p : List Flag → Bool) := statuses.filterMap fun e =>
    match e.path with
    | some path => if p e.flags then some (path ++ root) else none
    | none => none
  { allowStaged
    staged := if allowStaged then [] else paths fun fs => fs == [.index]
    dirty := if allowDirty then [] else paths fun fs => !(fs == []) && !(fs == [.index]) }

/-- `GitRepo::check_path` (formatter.rs:82-89): whether it returns. -/
def Repo.check (repo : Repo) (p : RPath) : Bool := !repo.dirty.contains p && !repo.staged.contains p

/-- `GitRepo::stage_paths` (formatter.rs:91-119): the paths that are added to the index. -/
def Repo.toStage (repo : Repo) (paths : List RPath) : List RPath := if repo.allowStaged then [] else paths

/-- `NodeKind` (formatter.rs:228-233). -/
inductive NodeKind
  | node
  | list (separated : Bool)
  | bogus
  | union (variants : List Name)
  deriving DecidableEq, Repr

/-- `matches!(kind, NodeKind::Union { .. })` (formatter.rs:312). -/
def NodeKind.isUnion : NodeKind → Bool
  | .union _ => true
  | _ => false

/-- All types of nodes (formatter.rs:261-283): nodes, lists, bogus nodes, unions. -/
def nodeNames (ast : List (Name × Def)) : List (NodeKind × Name) :=
  (ast.filterMap fun | (n, .node _ _) => some (.node, n) | _ => none) ++
  (ast.filterMap fun | (n, .list _ s) => some (.list s.isSome, n) | _ => none) ++
  (ast.filterMap fun | (n, .bogus) => some (.bogus, n) | _ => none) ++
  (ast.filterMap fun | (n, .union vs) => some (.union vs, n) | _ => none)

/-- `get_node_concept` and `NodeConcept::as_str` (formatter.rs:561-575, 596-614). -/
def concept : NodeKind → Name
  | .bogus => "bogus".toList
  | .list _ => "lists".toList
  | .union _ => "any".toList
  | .node => "auxiliary".toList

/-- Splits before the second character that is in upper case, the first one being one (formatter.rs:618-623). -/
def splitUpper : Name → Option (Name × Name)
  | [] => none
  | c :: cs =>
    match cs.dropWhile (fun c => !c.isUpper) with
    | [] => none
    | d :: ds => some (c :: cs.takeWhile (fun c => !c.isUpper), d :: ds)

/-- From camel case to snake case (formatter.rs:637-649); characters in lower case are those of ASCII, which names of a grammar
consist of. -/
def snake : Name → Name
  | [] => []
  | c :: cs => (if c.isLower then [c] else [c.toLower]) ++ cs.flatMap fun c => if c.isLower then [c] else ['_', c.toLower]

/-- Names of modules that are keywords of Rust (formatter.rs:653-657). -/
def keywordStem (s : Name) : Name :=
  if s = "type".toList then "ts_type".toList else if s = "enum".toList then "ts_enum".toList else s

/-- `name_to_module` (formatter.rs:617-665): the directory and the module; `none`: a panic. The only dialect is `R`
(formatter.rs:540-547). -/
def nameToModule (kind : NodeKind) (n : Name) : Option (Name × Name) :=
  match n with
  | [] => none
  | c :: _ =>
    if c.isUpper = false then none
    else
      match splitUpper n with
      | none => none
      | some (pre, rest) =>
        match (if pre = "Any".toList then splitUpper rest else some (pre, rest)) with
        | none => none
        | some (dialect, name) =>
          if dialect = ['R'] then some (concept kind, keywordStem (snake name)) else none

/-- `NodeModuleInformation::as_path` (formatter.rs:584-593) below `root`, the directory `src` of the crate. -/
def modulePath (root : RPath) (m : Name × Name) : RPath := (m.2 ++ ".rs".toList) :: m.1 :: "r".toList :: root

/-- `path.join("mod.rs")` (formatter.rs:178, 213). -/
def modRs (dir : RPath) : RPath := "mod.rs".toList :: dir

/-- What the texts of files are made of: `reformat_with_command`, the implementation for a node (formatter.rs:331-426), the text
of `generated.rs` (formatter.rs:454-521). -/
structure Texts where
  pretty : Name → Name
  node : NodeKind → Name → Name
  generated : List (NodeKind × Name) → Name

/-- The working tree, `ModuleIndex` (formatter.rs:122-126) and the vector `stage` (formatter.rs:285). -/
structure St where
  disk : RPath → Option Name
  modules : List (RPath × Name)
  unused : List RPath
  stage : List RPath

/-- `File::create` and `write_all`. (formatter.rs:214-216, 434-436, 517-518) -/
def write (disk : RPath → Option Name) (p : RPath) (text : Name) : RPath → Option Name :=
  fun q => if q = p then some text else disk q

/-- The loop of `ModuleIndex::insert` (formatter.rs:177-191): directories with the module that each one gets. `Path::file_stem` of a
directory is its name: the names here have no dots. -/
def walk (root : RPath) (stem : Name) : RPath → List (RPath × Name)
  | [] => [([], stem)]
  | d :: up => (d :: up, stem) :: (if up = root then [] else walk root d up)

/-- The checks and insertions of that loop (formatter.rs:178-182). An `error` is the state at a panic. -/
def insertGo (repo : Repo) (st : St) : List (RPath × Name) → Except St St
  | [] => .ok st
  | (dir, stem) :: rest =>
    if repo.check (modRs dir) then insertGo repo { st with modules := st.modules ++ [(dir, stem)] } rest else .error st

/-- `ModuleIndex::insert` (formatter.rs:170-192) for a module of a node. -/
def insert (repo : Repo) (root : RPath) (st : St) (m : Name × Name) : Except St St :=
  insertGo repo { st with unused := st.unused.filter (· ≠ modulePath root m) } (walk root m.2 (m.1 :: "r".toList :: root))

/-- One turn of the loop over all nodes (formatter.rs:289-439). -/
def genNode (repo : Repo) (root : RPath) (texts : Texts) (st : St) (kn : NodeKind × Name) : Except St St :=
  match nameToModule kn.1 kn.2 with
  | none => .error st
  | some m =>
    match insert repo root st m with
    | .error st => .error st
    | .ok st =>
      if !kn.1.isUnion && (st.disk (modulePath root m)).isSome then .ok st
      else if repo.check (modulePath root m) then
        .ok { st with disk := write st.disk (modulePath root m) (texts.node kn.1 kn.2), stage := st.stage ++ [modulePath root m] }
      else .error st

/-- That loop (formatter.rs:289-439). -/
def genNodes (repo : Repo) (root : RPath) (texts : Texts) : St → List (NodeKind × Name) → Except St St
  | st, [] => .ok st
  | st, kn :: rest =>
    match genNode repo root texts st kn with
    | .error st => .error st
    | .ok st => genNodes repo root texts st rest

/-- The text of a `mod.rs` (formatter.rs:198-211); the order of modules, which are sorted, is not modelled. -/
def modText (texts : Texts) (modules : List (RPath × Name)) (dir : RPath) : Name :=
  texts.pretty <| ((modules.filter fun m => m.1 = dir).map Prod.snd).eraseDups.flatMap fun i =>
    (if dir.head? = some i then "#[allow(clippy::module_inception)]\n".toList else []) ++
      "pub(crate) mod ".toList ++ i ++ ";\n".toList

/-- The first loop of `ModuleIndex::print` (formatter.rs:197-220) over the directories. -/
def printMods (texts : Texts) (modules : List (RPath × Name)) : St → List RPath → St
  | st, [] => st
  | st, dir :: rest =>
    printMods texts modules
      { st with
        disk := write st.disk (modRs dir) (modText texts modules dir)
        unused := st.unused.filter (· ≠ modRs dir)
        stage := st.stage ++ [modRs dir] } rest

/-- `ModuleIndex::print` (formatter.rs:196-226). -/
def printIndex (texts : Texts) (st : St) : St :=
  let st := printMods texts st.modules st (st.modules.map Prod.fst).eraseDups
  { st with disk := fun p => if p ∈ st.unused then none else st.disk p, stage := st.stage ++ st.unused }

/-- The path of `generated.rs` (formatter.rs:258). -/
def generatedRs (root : RPath) : RPath := "generated.rs".toList :: root

/-- `generate_formatter` (formatter.rs:243-445); `files`: the files that `ModuleIndex::new` finds (formatter.rs:129-162). -/
def generate (repo : Repo) (root : RPath) (texts : Texts) (files : List RPath) (disk : RPath → Option Name)
    (names : List (NodeKind × Name)) : Except St St :=
  match genNodes repo root texts ⟨disk, [], files, []⟩ names with
  | .error st => .error st
  | .ok st =>
    let st := printIndex texts st
    .ok { st with disk := write st.disk (generatedRs root) (texts.generated names), stage := st.stage ++ [generatedRs root] }

/-- The working tree at the end, of a run or of a panic. (formatter.rs:243-445) -/
def after : Except St St → RPath → Option Name
  | .ok st => st.disk
  | .error st => st.disk

/-- `TaskCommand` (xtask/codegen/src/lib.rs:61-74). -/
inductive Task
  | formatter
  | grammar (languages : List Name)
  | all
  deriving DecidableEq, Repr

/-- `task_command().run()` (xtask/codegen/src/lib.rs:61-74, main.rs:8) for the arguments after the name of the program; `none`: the
process ends with usage or an error. The parser is made by the crate bpaf (external): commands without fields take no further
arguments, and arguments that begin with `-` are not positional; `--` is left out. -/
def taskCommand : List Name → Option Task
  | [] => none
  | c :: rest =>
    if c = "formatter".toList then if rest = [] then some .formatter else none
    else if c = "all".toList then if rest = [] then some .all else none
    else if c = "grammar".toList then if rest.all (fun a => a.head? != some '-') then some (.grammar rest) else none
    else none

/-- Does `main` call `generate_formatters` (xtask/codegen/src/main.rs:10-21)? -/
def Task.formats : Task → Bool
  | .grammar _ => false
  | _ => true

/-- The files in crates/air_r_formatter/src/r of the repository, with their directories. -/
def airModules : List (Name × Name) := ([
  ("any", "argument_name"), ("any", "expression"), ("any", "parameter_name"), ("any", "selector"), ("any", "value"),
  ("auxiliary", "argument"), ("auxiliary", "argument_name_clause"), ("auxiliary", "binary_expression"),
  ("auxiliary", "braced_expressions"), ("auxiliary", "break_expression"), ("auxiliary", "call"), ("auxiliary", "call_arguments"),
  ("auxiliary", "complex_value"), ("auxiliary", "dot_dot_i"), ("auxiliary", "dots"), ("auxiliary", "double_value"),
  ("auxiliary", "else_clause"), ("auxiliary", "extract_expression"), ("auxiliary", "false_expression"),
  ("auxiliary", "for_statement"), ("auxiliary", "function_definition"), ("auxiliary", "identifier"), ("auxiliary", "if_statement"),
  ("auxiliary", "inf_expression"), ("auxiliary", "integer_value"), ("auxiliary", "na_expression"),
  ("auxiliary", "namespace_expression"), ("auxiliary", "nan_expression"), ("auxiliary", "next_expression"),
  ("auxiliary", "null_expression"), ("auxiliary", "parameter"), ("auxiliary", "parameter_default"), ("auxiliary", "parameters"),
  ("auxiliary", "parenthesized_expression"), ("auxiliary", "repeat_statement"), ("auxiliary", "root"),
  ("auxiliary", "string_value"), ("auxiliary", "subset"), ("auxiliary", "subset_2"), ("auxiliary", "subset_2_arguments"),
  ("auxiliary", "subset_arguments"), ("auxiliary", "true_expression"), ("auxiliary", "unary_expression"),
  ("auxiliary", "while_statement"), ("bogus", "bogus"), ("bogus", "bogus_expression"), ("bogus", "bogus_value"),
  ("lists", "argument_list"), ("lists", "expression_list"), ("lists", "parameter_list")]).map fun p => (p.1.toList, p.2.toList)

end Verif.FormatterGen
