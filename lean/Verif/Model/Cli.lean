import Verif.Model.Discovery

/-!
# The `air format` command (`crates/air/src`, `crates/workspace/src/format.rs`)

Paths are absolute (`fs::normalize_path` happens outside of the model). The formatter proper is a parameter
(`Formatter`), and so is what the file system does when a file is written.
-/

namespace Verif.Cli

open Verif.Resolver (Path Resolver)
open Verif.Discovery
open Verif.Settings (Settings Toml)

/-- Parsing, formatting and printing of a text under given settings: `FormatSettings::to_format_options`
(crates/workspace/src/settings.rs:70-84), which also looks at the text, then
crates/workspace/src/format.rs:43-48, 73-75. `none` is a parse, format or print error. -/
abbrev Formatter := Settings → String → Option String

/-- `FormattedSource` (crates/workspace/src/format.rs:6-12). -/
inductive FormattedSource | changed (new : String) | unchanged
  deriving DecidableEq, Repr

/-- `format_source` and `format_source_with_parse` (crates/workspace/src/format.rs:39-82). -/
def formatSource (fmt : Formatter) (settings : Settings) (source : String) :
    Option FormattedSource :=
  (fmt settings source).map fun formatted =>
    if source.utf8ByteSize = formatted.utf8ByteSize ∧ source = formatted then .unchanged
    else .changed formatted

/-- The contents of the files that can be read as text. (what `std::fs::read_to_string` gives,
crates/air/src/commands/format/paths.rs:157) -/
abbrev World := Path → Option String

/-- A file has new contents (`std::fs::write`, crates/air/src/commands/format/paths.rs:172; external). -/
def World.set (w : World) (p : Path) (c : Option String) : World :=
  fun q => if q = p then c else w q

/-- What `std::fs::write` of a text to a path does: succeed, or fail leaving the file with some
contents. (crates/air/src/commands/format/paths.rs:172; the call itself is external) -/
inductive WriteOutcome | ok | failed (after : Option String)
  deriving DecidableEq, Repr

/-- `FormatMode` (commands/format.rs:9-13). -/
inductive Mode | write | check
  deriving DecidableEq, Repr

/-- `ExitStatus` (status.rs:3-11). -/
inductive ExitStatus | success | failure | error
  deriving DecidableEq, Repr

/-- `From<ExitStatus> for ExitCode` (status.rs:13-21). -/
def ExitStatus.code : ExitStatus → Nat
  | .success => 0
  | .failure => 1
  | .error => 255

/-- `format_path` (commands/format/paths.rs:150-166); `none` is `FormatPathError::{Read, Format}`. -/
def formatPath (fmt : Formatter) (w : World) (path : Path) (settings : Settings) :
    Option FormattedSource :=
  (w path).bind fun old => formatSource fmt settings old

/-- `write_path` (commands/format/paths.rs:168-175): the new state of the files, and whether the
write succeeded. -/
def writePath (outcome : Path → WriteOutcome) (w : World) (path : Path) :
    FormattedSource → World × Bool
  | .changed new =>
    match outcome path with
    | .ok => (w.set path (some new), true)
    | .failed after => (w.set path after, false)
  | .unchanged => (w, true)

/-- `check_path` (commands/format/paths.rs:177-183). -/
def checkPath (path : Path) : FormattedSource → Option Path
  | .changed _ => some path
  | .unchanged => none

/-- `format_paths_write` (commands/format/paths.rs:98-122) on the outcome of the discovery: the final
state of the files and the paths (or walker errors) an error is reported for. -/
def formatPathsWrite (fmt : Formatter) (outcome : Path → WriteOutcome)
    (resolver : Resolver Settings) : List Found → World → World × List Found
  | [], w => (w, [])
  | .error p :: rest, w =>
    let (w, errors) := formatPathsWrite fmt outcome resolver rest w
    (w, .error p :: errors)
  | .file p :: rest, w =>
    match formatPath fmt w p (Resolver.resolveOrFallback resolver p) with
    | some formatted =>
      let (w, written) := writePath outcome w p formatted
      let (w, errors) := formatPathsWrite fmt outcome resolver rest w
      (w, if written then errors else .file p :: errors)
    | none =>
      let (w, errors) := formatPathsWrite fmt outcome resolver rest w
      (w, .file p :: errors)

/-- `format_paths_check` (commands/format/paths.rs:124-148): the paths that would change, and the
errors. -/
def formatPathsCheck (fmt : Formatter) (resolver : Resolver Settings) (w : World) :
    List Found → List Path × List Found
  | [] => ([], [])
  | .error p :: rest =>
    let (paths, errors) := formatPathsCheck fmt resolver w rest
    (paths, .error p :: errors)
  | .file p :: rest =>
    let (paths, errors) := formatPathsCheck fmt resolver w rest
    match formatPath fmt w p (Resolver.resolveOrFallback resolver p) with
    | some formatted =>
      match checkPath p formatted with
      | some p => (p :: paths, errors)
      | none => (paths, errors)
    | none => (paths, .file p :: errors)

/-- Everything a run leaves behind: the files, the "Would reformat" messages (before sorting), the
standard output, and the exit status. (crates/air/src/commands/format/paths.rs:35-95, 172,
crates/air/src/commands/format/stdin.rs:80-124, crates/air/src/status.rs:3-11) -/
structure Outcome where
  files : World
  reported : List Path := []
  stdout : Option String := none
  status : ExitStatus

/-- `format` of commands/format/paths.rs:35-85, after settings discovery succeeded and with the result of
file discovery. (A failure to print the report to stderr is left out.) -/
def formatPaths (fmt : Formatter) (outcome : Path → WriteOutcome) (mode : Mode)
    (resolver : Resolver Settings) (found : List Found) (w : World) : Outcome :=
  match mode with
  | .write =>
    let (w, errors) := formatPathsWrite fmt outcome resolver found w
    { files := w, status := if errors.isEmpty then .success else .error }
  | .check =>
    let (paths, errors) := formatPathsCheck fmt resolver w found
    { files := w, reported := paths,
      status :=
        if errors.isEmpty then if paths.isEmpty then .success else .failure
        else .error }

/-- `is_stdin_formattable` (commands/format/stdin.rs:166-234). As in `Discovery.visit` a panic counts as
"not excluded". -/
def isStdinFormattable (path : Path) (settings : Settings) (exclude : Exclude) (incl : Include) :
    Bool :=
  let excluded :=
    match exclude with
    | .matched => anyExcludeMatchedPathOrAnyParents path false settings == some true
    | .nothing => false
  if excluded then false
  else
    match incl with
    | .matched => anyIncludeMatchedPath path settings
    | .everything => true

/-- `FormattedStdin` (commands/format/stdin.rs:22-28). -/
inductive FormattedStdin | changed (new : String) | unchanged (old : String)

/-- `format_stdin` (commands/format/stdin.rs:126-137). `stdin` is `none` if it cannot be read as text. -/
def formatStdin (fmt : Formatter) (settings : Settings) (stdin : Option String) :
    Option FormattedStdin :=
  stdin.bind fun old =>
    (formatSource fmt settings old).map fun
      | .changed new => .changed new
      | .unchanged => .unchanged old

/-- `format_stdin_write` (commands/format/stdin.rs:80-103): the text written to stdout; `none` is an error.
(A failing write to stdout is left out.) -/
def formatStdinWrite (fmt : Formatter) (resolver : Resolver Settings) (exclude : Exclude)
    (incl : Include) (path : Path) (stdin : Option String) : Option String :=
  let settings := Resolver.resolveOrFallback resolver path
  let formatted :=
    if isStdinFormattable path settings exclude incl then formatStdin fmt settings stdin
    else stdin.map .unchanged
  formatted.map fun
    | .changed new => new
    | .unchanged old => old

/-- `format_stdin_check` (commands/format/stdin.rs:105-124). -/
def formatStdinCheck (fmt : Formatter) (resolver : Resolver Settings) (exclude : Exclude)
    (incl : Include) (path : Path) (stdin : Option String) : Option Bool :=
  let settings := Resolver.resolveOrFallback resolver path
  if !isStdinFormattable path settings exclude incl then some false
  else
    (formatStdin fmt settings stdin).map fun
      | .changed _ => true
      | .unchanged _ => false

/-- `format` of commands/format/stdin.rs:37-78, after settings discovery succeeded. -/
def formatStdinFormat (fmt : Formatter) (mode : Mode) (resolver : Resolver Settings)
    (exclude : Exclude) (incl : Include) (path : Path) (stdin : Option String) (w : World) :
    Outcome :=
  match mode with
  | .write =>
    match formatStdinWrite fmt resolver exclude incl path stdin with
    | some out => { files := w, stdout := some out, status := .success }
    | none => { files := w, status := .error }
  | .check =>
    match formatStdinCheck fmt resolver exclude incl path stdin with
    | some changed => { files := w, status := if changed then .failure else .success }
    | none => { files := w, status := .error }

/-- `FormatCommand` (args.rs:41-70). -/
structure Command where
  paths : List Path := []
  check : Bool := false
  force : Bool := false
  stdinFilePath : Option Path := none

/-- Everything the command depends on. `tree p` is what the walker finds at `p`; `dropped` stands for
its own filters (see `Discovery.below`). (the inputs of crates/air/src/commands/format.rs:15-32) -/
structure Env where
  compile : Path → List String → Option FilePatterns.FilePatterns
  disk : Disk
  tree : Path → Node
  dropped : Path → Bool → Bool
  fmt : Formatter
  outcome : Path → WriteOutcome
  stdin : Option String

/-- The mode and the exclusion and inclusion rules in effect (commands/format.rs:20-26, 50-58). -/
def Command.mode (c : Command) : Mode := if c.check then .check else .write
/-- `--force` turns exclusion off (crates/air/src/commands/format.rs:22-26). -/
def Command.exclude (c : Command) : Exclude := if c.force then .nothing else .matched
/-- `--force` includes all files (crates/air/src/commands/format.rs:22-26). -/
def Command.incl (c : Command) : Include := if c.force then .everything else .matched

/-- `format` (commands/format.rs:15-32) with `main` (main.rs:7-28): `Run env c w o` if starting with
the files `w` the command may end with the outcome `o` (any order of the discovered files is
possible). An `Err` of settings discovery ends in `ExitStatus::Error`. -/
inductive Run (env : Env) (c : Command) (w : World) : Outcome → Prop
  | inconsistent : c.stdinFilePath ≠ none → c.paths ≠ [] →
      Run env c w { files := w, status := .error }
  | stdinSettings (p : Path) : c.stdinFilePath = some p → c.paths = [] →
      discoverSettings env.compile env.disk [p] = none →
      Run env c w { files := w, status := .error }
  | stdin (p : Path) (settings : List (Path × Settings)) :
      c.stdinFilePath = some p → c.paths = [] →
      discoverSettings env.compile env.disk [p] = some settings →
      Run env c w
        (formatStdinFormat env.fmt c.mode (buildResolver settings) c.exclude c.incl p env.stdin w)
  | pathsSettings : c.stdinFilePath = none →
      discoverSettings env.compile env.disk c.paths = none →
      Run env c w { files := w, status := .error }
  | paths (settings : List (Path × Settings)) (found : List Found) :
      c.stdinFilePath = none →
      discoverSettings env.compile env.disk c.paths = some settings →
      DiscoverFiles (buildResolver settings) c.exclude c.incl env.dropped
        (c.paths.map fun p => (p, env.tree p)) found →
      Run env c w (formatPaths env.fmt env.outcome c.mode (buildResolver settings) found w)

/-! ## Crashes

`std::fs::write` is not atomic: it truncates the file and then writes the text in
some number of pieces. -/

/-- A primitive change to the file system. (the parts of `std::fs::write`,
crates/air/src/commands/format/paths.rs:172; external) -/
inductive FsOp | truncate (path : Path) | append (path : Path) (text : String)
  deriving DecidableEq, Repr

/-- Effect of a change (`std::fs::write`, crates/air/src/commands/format/paths.rs:172; external). -/
def FsOp.apply (w : World) : FsOp → World
  | .truncate p => w.set p (some "")
  | .append p t => w.set p ((w p).map (· ++ t))

/-- `Ops fmt resolver found w ops`: running write mode over the discovered files performs the changes `ops`,
if every one of them succeeds (commands/format/paths.rs:98-122, 168-175). -/
inductive Ops (fmt : Formatter) (resolver : Resolver Settings) :
    List Found → World → List FsOp → Prop
  | nil (w : World) : Ops fmt resolver [] w []
  | error {p : Path} {rest : List Found} {w : World} {ops : List FsOp} :
      Ops fmt resolver rest w ops → Ops fmt resolver (.error p :: rest) w ops
  | skip {p : Path} {rest : List Found} {w : World} {ops : List FsOp} :
      formatPath fmt w p (Resolver.resolveOrFallback resolver p) = none ∨
        formatPath fmt w p (Resolver.resolveOrFallback resolver p) = some .unchanged →
      Ops fmt resolver rest w ops → Ops fmt resolver (.file p :: rest) w ops
  | write {p : Path} {rest : List Found} {w : World} {ops : List FsOp} {new : String}
      (pieces : List String) :
      formatPath fmt w p (Resolver.resolveOrFallback resolver p) = some (.changed new) →
      String.join pieces = new →
      Ops fmt resolver rest (w.set p (some new)) ops →
      Ops fmt resolver (.file p :: rest) w
        (.truncate p :: pieces.map (FsOp.append p) ++ ops)

end Verif.Cli
