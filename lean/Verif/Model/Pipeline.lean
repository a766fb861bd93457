import Verif.Model.Cli
import Verif.Model.Documents
import Verif.Model.Factory
import Verif.Model.FormatRules
import Verif.Model.Parser
import Verif.Model.Placement

/-!
# From settings and text to text (`crates/workspace/src/format.rs`)

The formatter that the `air format` command runs on each file, put together from the models of its parts:
options from settings, parser, nodes, comments, rules. Outside of the model are tree-sitter and the printer of
`biome_formatter`, which are parameters.
-/

namespace Verif.Whole
open Verif.Syntax Verif.Parser Verif.Format
open Verif.Lsp (RFormatOptions toFormatOptions)
open Verif.LineEnding (Ending toCrlf)
open Verif.Settings (IndentStyle)

/-- What the formatter depends on besides settings and text.
* `windows`: `cfg!(windows)`
* `sitter`: the tree of tree-sitter-r for a text, and whether it has an error (parse.rs:108-131)
* `print`: the layout that the printer of `biome_formatter` chooses, given the line width, the indent style and
  the indent width (`as_print_options`, context.rs:213-215; the line ending has no influence on the layout) -/
structure Outside where
  windows : Bool
  sitter : List Byte → TsNode × Bool
  print : Nat → IndentStyle → Nat → Doc → List El

/-- The bytes of a text. (std, external; `&str` of crates/workspace/src/format.rs:39-55) -/
def utf8 (s : String) : List Byte := s.toByteArray.data.toList

/-- The text with the given bytes. (std, external; `String` of crates/workspace/src/format.rs:39-55) -/
def ofUtf8 (bs : List Byte) : Option String := String.fromUTF8? ⟨⟨bs⟩⟩

/-- The options in the form the rules use them (context.rs; `in_setting`, call.rs). The texts of comments
and names are decoded again; they are parts of the text of the file, so that this does not fail.
(crates/air_r_formatter/src/context.rs:70-145, crates/air_r_formatter/src/comments_ext.rs:76-111) -/
def ruleOpts (o : RFormatOptions) : Opts where
  style := o.assignmentStyle
  persistent := o.persistentLineBreaks == .respect
  skip name := ((ofUtf8 name).map fun n => (o.skip.map (SortedStrings.contains · n)).getD false).getD false
  table name := ((ofUtf8 name).map fun n => (o.table.map (SortedStrings.contains · n)).getD false).getD false
  directive text := (ofUtf8 text).bind fun t => Directive.parseCommentDirective t.toList
  generated text := ((ofUtf8 text).bind fun t => Directive.parseSpecialSkipFile t.toList).isSome

/-- One level of indentation (`IndentStyle`, `IndentWidth`; `print_indent` of the printer).
(crates/air_r_formatter/src/context.rs:197-215; the printer is external) -/
def indentUnit (o : RFormatOptions) : List Byte :=
  match o.indentStyle with
  | .tab => [9]
  | .space => List.replicate o.indentWidth 32

/-- Indentation: elements with one tab for each level, which becomes `unit`. (the printer is external;
crates/workspace/src/format.rs:64-83) -/
def reindent (unit : List Byte) (es : List El) : List El :=
  es.map fun e => match e with
    | .blank bs => .blank (bs.flatMap fun b => if b = 9 then unit else [b])
    | e => e

/-- The printed elements with the given indentation (`print_text` of the printer). Blanks of the document (in
code that is kept as it is) are not changed. (the printer is external; crates/workspace/src/format.rs:64-83) -/
def printUnit (unit : List Byte) (s : PState) : List El → List El
  | [] => reindent unit (flush s).1
  | .blank bs :: es =>
    reindent unit (printEl s (.blank bs)).1.dropLast ++ .blank bs :: printUnit unit (printEl s (.blank bs)).2 es
  | e :: es => reindent unit (printEl s e).1 ++ printUnit unit (printEl s e).2 es

/-- The text that is printed for a file by a printer `pick` with the indentation `unit`.
(crates/workspace/src/format.rs:64-83, crates/air_r_formatter/src/lib.rs:325-330) -/
def formatted (o : Opts) (pick : Doc → List El) (unit : List Byte) (x : Root) : List Byte :=
  render (printUnit unit {} (pick (fmtRoot o x.attach)))

/-- What the formatter sees of a text: the nodes with their fields. `none`: the parser or the
access to a field panics. (crates/air_r_parser/src/parse.rs:96-122, crates/workspace/src/format.rs:64-83) -/
def seenRoot (text : List Byte) (root : TsNode) : Option Root :=
  (parse text root false).bind fun t => t.1.slotted.bind castRoot

/-- The line ending of the options: the printer writes it wherever the formatted text has a line feed.
(crates/air_r_formatter/src/context.rs:209-215; the printer is external) -/
def withEnding : Ending → List Byte → List Byte
  | .lf, bs => bs
  | .crlf, bs => toCrlf 13 10 bs

/-- `format_sub_tree` (biome_formatter) on the artificial root that range formatting builds
(crates/lsp/src/handlers_format.rs:129-155), up to the removal of the last character, which is part of
`RangeFormat.formatSelection`. `pick` is the layout that the printer chooses; it starts at the indentation of the
selected code (`print_with_indent`). `none`: the access to a field panics. -/
def formatSub (o : Opts) (pick : Doc → List El) (unit : List Byte) (ending : Ending) (t : Tree) :
    Option (Option (List Byte)) :=
  (t.slotted.bind castRoot).map fun x => some (withEnding ending (formatted o pick unit x))

/-- `format_source` up to the comparison (crates/workspace/src/format.rs:39-75) with
`to_format_options` (crates/workspace/src/settings.rs:70-84). `none`: there is a parse error, or one of the
steps panics. -/
def airFormat (out : Outside) : Cli.Formatter := fun settings source =>
  let o := toFormatOptions out.windows settings source.toList
  let text := utf8 source
  let (root, hasError) := out.sitter text
  if hasError then none
  else
    (seenRoot text root).bind fun x =>
      ofUtf8 (withEnding o.lineEnding 
        (formatted (ruleOpts o) (out.print o.lineWidth o.indentStyle o.indentWidth) (indentUnit o) x))

end Verif.Whole
