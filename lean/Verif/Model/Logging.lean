/-!
# Which messages are logged (`crates/lsp/src/logging.rs`, `crates/air/src/logging.rs`)

The filter of `tracing_subscriber` is transcribed from its published source (`filter/targets.rs`, `filter/directive.rs`).
Directives for fields (`target[{field}]=level`) are not modelled. Targets of messages are module paths.
-/

namespace Verif.Logging

/-- `LogLevel` (lsp/src/logging.rs:349-358, air/src/logging.rs:60-68), in this order. -/
inductive Level | error | warn | info | debug | trace
  deriving DecidableEq, Repr

/-- Position in the order of `tracing::Level`; 0 is `LevelFilter::OFF`. (tracing, external;
crates/lsp/src/logging.rs:361-370, crates/air/src/logging.rs:72-81) -/
def Level.rank : Level → Nat
  | .error => 1 | .warn => 2 | .info => 3 | .debug => 4 | .trace => 5

/-- Derived `Deserialize` with `rename_all = "lowercase"` (lsp/src/logging.rs:349-350). -/
def Level.parse (s : String) : Option Level :=
  if s = "error" then some .error else if s = "warn" then some .warn else if s = "info" then some .info
  else if s = "debug" then some .debug else if s = "trace" then some .trace else none

/-- The target of a directive or an event (tracing, external; crates/lsp/src/logging.rs:281-314). -/
abbrev Target := List Char

/-- `StaticDirective`: a level for all targets that begin with `target`, or for all targets; `level`: 0 is off.
(tracing, external; crates/lsp/src/logging.rs:281-314) -/
structure Directive where
  target : Option Target
  level : Nat
  deriving DecidableEq, Repr

/-- `cares_about`. (tracing, external; crates/lsp/src/logging.rs:281-314) -/
def Directive.cares (d : Directive) (t : Target) : Bool :=
  match d.target with
  | some p => p.isPrefixOf t
  | none => true

/-- The first part of `Ord for StaticDirective`: whether there is a target, and how long it is. (tracing,
external; crates/lsp/src/logging.rs:281-314) -/
def Directive.size (d : Directive) : Nat :=
  match d.target with
  | some p => p.length + 1
  | none => 0

/-- Does the first directive come before the second one in a `DirectiveSet`? (`Ord for StaticDirective`, reversed.)
(tracing, external; crates/lsp/src/logging.rs:281-314) -/
def Directive.before (d e : Directive) : Bool :=
  e.size < d.size || (d.size == e.size && decide (e.target.getD [] < d.target.getD []))

/-- `DirectiveSet::add`: a binary search in a sorted list; a directive for the same target is replaced.
(tracing, external; crates/lsp/src/logging.rs:308-311) -/
def add (d : Directive) : List Directive → List Directive
  | [] => [d]
  | e :: es =>
    if d.target = e.target then d :: es
    else if d.before e then d :: e :: es
    else e :: add d es

/-- `DirectiveSet::enabled`: the first directive that cares decides. (tracing, external;
crates/lsp/src/logging.rs:255-259) -/
def enabled (ds : List Directive) (t : Target) (l : Level) : Bool :=
  match ds.find? (fun d => d.cares t) with
  | some d => decide (l.rank ≤ d.level)
  | none => false

/-- `AIR_CRATE_NAMES` (crates/build.rs, and the snapshot of its test). (crates/crates/build.rs:12-42) -/
def crateNames : List Target := (["aether_lsp_utils", "air", "air_formatter_test", "air_r_factory", "air_r_formatter",
  "air_r_parser", "air_r_syntax", "biome_ungrammar", "comments", "crates", "fs", "line_ending", "lsp", "lsp_test",
  "settings", "tests_macros", "workspace", "xtask", "xtask_codegen", "xtask_json_schema", "zed_air"].map String.toList)

/-- The environment and what cannot be seen here.
* `logLevel`, `dependencyLevels`: `AIR_LOG_LEVEL`, `AIR_DEPENDENCY_LOG_LEVELS`
* `parse`: `filter::Targets::from_str` up to its error, as the list of directives in the order of the text
(crates/lsp/src/logging.rs:281-347, 211-271) -/
structure Env where
  logLevel : Option String
  dependencyLevels : Option String
  parse : String → Option (List Directive)

/-- `resolve_log_level` (lsp/src/logging.rs:316-332). -/
def Env.level (env : Env) (client : Option Level) : Level :=
  match env.logLevel.bind Level.parse with
  | some l => l
  | none => match client with | some l => l | none => .info

/-- `resolve_dependency_log_levels` (lsp/src/logging.rs:334-347). -/
def Env.dependencies (env : Env) (client : Option String) : Option String :=
  match env.dependencyLevels with
  | some d => some d
  | none => client

/-- `filter.with_target(target, level)` for all crates (lsp/src/logging.rs:308-311, air/src/logging.rs:13-16). -/
def withCrates (l : Level) (ds : List Directive) : List Directive :=
  crateNames.foldl (fun ds n => add ⟨some n, l.rank⟩ ds) ds

/-- `log_filter` (lsp/src/logging.rs:281-314) without its message. -/
def logFilter (env : Env) (level : Option Level) (deps : Option String) : List Directive :=
  let ds :=
    match env.dependencies deps with
    | some d => match env.parse d with | some ds => ds.foldl (fun ds d => add d ds) [] | none => []
    | none => []
  withCrates (env.level level) ds

/-- The filter of the command line (air/src/logging.rs:8-16); the default is `warn`. -/
def cliFilter (level : Option Level) : List Directive := withCrates (level.getD .warn) []

/-- `LogState` (lsp/src/logging.rs:172-182) and the filter that is used. -/
structure State where
  level : Option Level
  deps : Option String
  filter : List Directive

/-- `init_logging` (lsp/src/logging.rs:211-271). -/
def init (env : Env) (level : Option Level) (deps : Option String) : State := ⟨level, deps, logFilter env level deps⟩

/-- `LogState::reload` (lsp/src/logging.rs:185-208); `ok`: whether `handle.reload` succeeds. -/
def State.reload (env : Env) (s : State) (level : Option Level) (deps : Option String) (ok : Bool) : State :=
  if s.level = level ∧ s.deps = deps then s
  else if ok then ⟨level, deps, logFilter env level deps⟩ else s

end Verif.Logging
