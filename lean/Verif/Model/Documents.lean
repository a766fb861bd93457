import Verif.Model.TextChanges
import Verif.Model.Settings

/-!
# Documents of the language server (`crates/lsp/src/documents.rs`) and their formatting options
(`crates/lsp/src/{settings,settings_vsc}.rs`, `crates/workspace/src/settings.rs`)
-/

namespace Verif.Lsp

open Verif.Resolver (Path)
open Verif.Settings (Settings IndentStyle AssignmentStyle PersistentLineBreaks)
open Verif.TextChanges (Change Edit)
open Verif.LineIndex (Encoding LRange Index)
open Verif.LineEnding (Ending)

/-- `RFormatOptions` (crates/air_r_formatter/src/context.rs:71-95). -/
structure RFormatOptions where
  indentStyle : IndentStyle
  indentWidth : Nat
  lineEnding : Ending
  lineWidth : Nat
  persistentLineBreaks : PersistentLineBreaks
  assignmentStyle : AssignmentStyle
  skip : Option (List String)
  table : Option (List String)
  deriving DecidableEq, Repr

/-- `FormatSettings::to_format_options` (crates/workspace/src/settings.rs:70-84). `windows` is
`cfg!(windows)`. -/
def toFormatOptions (windows : Bool) (s : Settings) (source : List Char) : RFormatOptions where
  indentStyle := s.indentStyle
  indentWidth := s.indentWidth
  lineEnding := s.lineEnding.finalize windows source
  lineWidth := s.lineWidth
  persistentLineBreaks := s.persistentLineBreaks
  assignmentStyle := s.assignmentStyle
  skip := s.skip
  table := s.table

/-- `DocumentSettings` (crates/lsp/src/settings.rs:11-22). -/
structure DocSettings where
  indentStyle : Option IndentStyle := none
  indentWidth : Option Nat := none
  lineWidth : Option Nat := none
  deriving DecidableEq, Repr

/-- `DocumentSettings::merge` (crates/lsp/src/settings.rs:36-52). -/
def DocSettings.merge (o : RFormatOptions) (d : DocSettings) : RFormatOptions :=
  let o := match d.indentStyle with | some x => { o with indentStyle := x } | none => o
  let o := match d.indentWidth with | some x => { o with indentWidth := x } | none => o
  match d.lineWidth with | some x => { o with lineWidth := x } | none => o

/-- `indent_style_from_vsc` (settings_vsc.rs:137-143). -/
def indentStyleFromVsc (insertSpaces : Bool) : IndentStyle :=
  if insertSpaces then .space else .tab

/-- `indent_width_from_usize` (settings_vsc.rs:130-135): out of range values give the default. -/
def indentWidthFromUsize (n : Nat) : Nat :=
  (if n < 256 then Settings.indentWidthTryFrom n else none).getD 2

/-- The external tools a document depends on: the parser, the formatter with its printer, the diff
library, and what is done with a selection (modelled in `Model/RangeFormat.lean`). (what
crates/lsp/src/documents.rs:46-128 and crates/lsp/src/handlers_format.rs:14-68 call) -/
structure Tools where
  /-- `air_r_parser::Parse`. -/
  Parse : Type
  /-- `air_r_parser::parse` with the default options. -/
  parse : List Char → Parse
  /-- `Parse::has_error`. -/
  hasError : Parse → Bool
  /-- `format_node` and `print` (crates/workspace/src/format.rs:73-75), `none` is an error. -/
  format : RFormatOptions → Parse → Option (List Char)
  /-- `dissimilar::diff`. -/
  diff : List Char → List Char → List TextEdit.Chunk
  /-- handlers_format.rs:106-157: what to replace in the text and by what. -/
  formatRange : RFormatOptions → Parse → Nat × Nat →
    Option (Option (TextEdit.Range × List Char))
  /-- `view_file` (handlers_ext.rs:27-71) on a document that exists. -/
  view : Nat → List Char → Parse → Option String
  /-- `cfg!(windows)`. -/
  windows : Bool
  /-- The external `GitignoreBuilder`. -/
  compile : Path → List String → Option FilePatterns.FilePatterns

/-- `Document` (documents.rs:8-35). -/
structure Document (T : Tools) where
  contents : List Char
  index : Index
  endings : Ending
  encoding : Encoding
  parse : T.Parse
  version : Option Int
  settings : DocSettings

variable {T : Tools}

/-- `Document::new` (documents.rs:46-79); `none` is a panic of `normalize`. -/
def Document.new (contents : List Char) (version : Option Int) (encoding : Encoding) :
    Option (Document T) :=
  let endings := LineEnding.infer '\r' '\n' contents
  let contents : Option (List Char) :=
    match endings with
    | .lf => some contents
    | .crlf => LineEnding.normalize '\r' '\n' contents
  contents.map fun contents =>
    { contents, index := LineIndex.new contents, endings, encoding, parse := T.parse contents,
      version, settings := {} }

/-- `Document::on_did_change` (documents.rs:98-127); `none` is a panic: an older version, or an
invalid range. -/
def Document.onDidChange (d : Document T) (changes : List Change) (newVersion : Int) :
    Option (Document T) :=
  if d.version.any (fun old => decide (newVersion < old)) then none
  else
    (TextChanges.applyTextChanges d.encoding d.contents changes d.index).map fun (contents, _) =>
      { d with contents, index := LineIndex.new contents, parse := T.parse contents,
               version := some newVersion }

end Verif.Lsp
