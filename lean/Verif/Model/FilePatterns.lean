import Verif.Model.Resolver

/-!
# File patterns (`crates/workspace/src/file_patterns.rs`)

Paths are component lists (see `Model/Resolver.lean`); an absolute path starts with the component `"/"`.

The gitignore matcher of the external `ignore` crate decides about single paths; for the
user's patterns it is a parameter (`matchedStripped`). For the built-in patterns, which all have the
form `**/<component glob>` or `**/<component glob>/`, the matcher is transcribed.
-/

namespace Verif.FilePatterns

open Verif.Resolver (Path)

/-- `Path::parent`: `None` for the empty path and for the root. (std, external; used in
crates/workspace/src/file_patterns.rs:151) -/
def parent : Path → Option Path
  | [] => none
  | ["/"] => none
  | c :: rest => some ((c :: rest).dropLast)

/-- `Path::ancestors` of an absolute path: the path itself, then its parents up to the root. (std, external;
used in crates/workspace/src/discovery.rs:36-78) -/
def ancestors : Path → List Path
  | [] => []
  | c :: rest => (ancestors rest).map (c :: ·) ++ [[c]]

/-- `ignore::Match` (the matched glob is dropped). (crates `ignore` and `globset`, external;
crates/workspace/src/file_patterns.rs:66-80, 121-131) -/
inductive Match | none | ignore | whitelist
  deriving DecidableEq, Repr

/-- `FilePatterns` (file_patterns.rs:17-19): a `Gitignore` with its root. The decision on a path
already stripped of the root is the parameter `matchedStripped`; `isEmpty` says that
there is no glob. -/
structure FilePatterns where
  root : Path
  isEmpty : Bool
  matchedStripped : Path → Bool → Match

/-- `Gitignore::strip`: removes the root from the path, if it is a prefix. (crates `ignore` and `globset`,
external; behind crates/workspace/src/file_patterns.rs:66-93) -/
def FilePatterns.strip (p : FilePatterns) (path : Path) : Path :=
  if p.root.isPrefixOf path then path.drop p.root.length else path

/-- `Match::is_ignore`, the conversion of file_patterns.rs:70-74, 87-91: a whitelisted path counts as not
matched. -/
def Match.isIgnore : Match → Bool
  | .ignore => true
  | _ => false

/-- `FilePatterns::matched` (file_patterns.rs:66-75). -/
def FilePatterns.matched (p : FilePatterns) (path : Path) (isDir : Bool) : Bool :=
  (if p.isEmpty then .none else p.matchedStripped (p.strip path) isDir : Match).isIgnore

/-- The proper parents of a relative path, closest first, ending with the empty path (`Path::parent`
of `a` is the empty path). (crates `ignore` and `globset`, external; behind
crates/workspace/src/file_patterns.rs:83-93) -/
def relParents : Path → List Path
  | [] => []
  | c :: rest => (relParents rest).map (c :: ·) ++ [[]]

/-- First decision other than `Match::None`. (crates `ignore` and `globset`, external; behind
crates/workspace/src/file_patterns.rs:83-93) -/
def firstDecision : List Match → Match
  | [] => .none
  | .none :: rest => firstDecision rest
  | m :: _ => m

/-- `FilePatterns::matched_path_or_any_parents` (file_patterns.rs:83-92) with
`Gitignore::matched_path_or_any_parents`: the outer `none` is its
`assert!(!path.has_root(), "path is expected to be under the root")`. -/
def FilePatterns.matchedPathOrAnyParents (p : FilePatterns) (path : Path) (isDir : Bool) :
    Option Bool :=
  if p.isEmpty then some false
  else
    let path := p.strip path
    if path.head? = some "/" then none
    else
      some (firstDecision (p.matchedStripped path isDir ::
        (relParents path).map fun q => p.matchedStripped q true)).isIgnore

/-- Tokens of a glob for one path component: a literal character, `*`, `[...]`. (crates `ignore` and `globset`,
external; the patterns of crates/workspace/src/settings.rs:52-70 and crates/settings) -/
inductive Tok | lit (c : Char) | star | cls (cs : List Char)
  deriving DecidableEq, Repr

/-- All suffixes of a list, longest first. (auxiliary for `matchGlob`) -/
def suffixes {α : Type} : List α → List (List α)
  | [] => [[]]
  | a :: rest => (a :: rest) :: suffixes rest

/-- `globset` matching of one component (`literal_separator(true)`: no token matches `/`). (crates `ignore` and
`globset`, external; behind crates/workspace/src/file_patterns.rs:121-131) -/
def matchGlob : List Tok → List Char → Bool
  | [], cs => cs.isEmpty
  | .lit c :: ts, cs =>
    match cs with
    | d :: ds => c == d && matchGlob ts ds
    | [] => false
  | .cls set :: ts, cs =>
    match cs with
    | d :: ds => d != '/' && set.contains d && matchGlob ts ds
    | [] => false
  | .star :: ts, cs =>
    (suffixes cs).any fun s =>
      !((cs.take (cs.length - s.length)).contains '/') && matchGlob ts s

/-- One default pattern: `**/glob`, with a trailing `/` if `dirOnly`.
(crates/workspace/src/file_patterns.rs:101-118) -/
structure DefaultGlob where
  dirOnly : Bool
  glob : List Tok
  deriving DecidableEq, Repr

/-- Parse the component part of a pattern. (crates `ignore` and `globset`, external; behind
crates/workspace/src/file_patterns.rs:112-114) -/
def parseTokens : List Char → List Tok
  | [] => []
  | '*' :: rest => .star :: parseTokens rest
  | '[' :: a :: b :: c :: ']' :: rest => .cls [a, b, c] :: parseTokens rest
  | c :: rest => .lit c :: parseTokens rest

/-- `GitignoreBuilder::add_line` restricted to the patterns `**/x` and `**/x/` without further slashes
(all the built-in ones; the prefix is enforced by file_patterns.rs:111). -/
def parsePattern (s : String) : DefaultGlob :=
  let body := s.toList.drop 3
  if body.getLast? = some '/' then { dirOnly := true, glob := parseTokens body.dropLast }
  else { dirOnly := false, glob := parseTokens body }

/-- `DefaultFilePatterns` (file_patterns.rs:39-41). -/
abbrev DefaultFilePatterns := List DefaultGlob

/-- `DefaultFilePatterns::try_from_iter` (file_patterns.rs:101-118). -/
def DefaultFilePatterns.fromList (patterns : List String) : DefaultFilePatterns :=
  patterns.map parsePattern

/-- A pattern `**/x` matches a path whose last component matches `x`. (crates `ignore` and `globset`, external;
behind crates/workspace/src/file_patterns.rs:121-131) -/
def DefaultGlob.matches (g : DefaultGlob) (path : Path) (isDir : Bool) : Bool :=
  match path.getLast? with
  | none => false
  | some name => (!g.dirOnly || isDir) && matchGlob g.glob name.toList

/-- `DefaultFilePatterns::matched` (file_patterns.rs:121-130). -/
def DefaultFilePatterns.matched (p : DefaultFilePatterns) (path : Path) (isDir : Bool) : Bool :=
  p.any fun g => g.matches path isDir

/-- `DefaultFilePatterns::matched_path_or_any_parents` (file_patterns.rs:138-156): the path, then its
parents as directories. -/
def DefaultFilePatterns.matchedPathOrAnyParents (p : DefaultFilePatterns) (path : Path)
    (isDir : Bool) : Bool :=
  p.matched path isDir || ((ancestors path).drop 1).any fun q => p.matched q true

/-- `DEFAULT_EXCLUDE_PATTERN_NAMES` (crates/workspace/src/settings/default_exclude_patterns.rs:23-34). -/
def defaultExclude : DefaultFilePatterns := .fromList
  ["**/.git/", "**/renv/", "**/revdep/", "**/cpp11.R", "**/RcppExports.R", "**/extendr-wrappers.R",
   "**/import-standalone-*.R"]

/-- `DEFAULT_INCLUDE_PATTERN_NAMES` (crates/workspace/src/settings/default_include_patterns.rs:10-13). -/
def defaultInclude : DefaultFilePatterns := .fromList ["**/*.[R,r]"]

end Verif.FilePatterns
