import Verif.Model.Ast

/-!
# The intermediate representation of the formatter and its printer

Models the part of `biome_formatter` (external crate, pinned in `Cargo.toml`) that air's rules use:
the elements they write, the layouts the printer may choose, and the printer. The crate's sources
are not part of `/repo`; what is assumed of it is listed in DESIGN.md.

The choice of layouts is over-approximated. The printer decides by measuring text whether a group
is printed flat or expanded and which variant of a best-fitting element is used; here every group
that is not marked as expanded may be printed either way and every variant may be chosen
(`Lays` is a relation). Everything proved about `Lays` therefore holds for every line width, every
indent width and every decision of the real printer.
-/

namespace Verif.Format
open Verif.Syntax

/-- A printed token. (biome_formatter, external; written by crates/air_r_formatter/src/lib.rs:274-290) -/
structure Tok where
  kind : Kind
  text : List Byte
  deriving DecidableEq, Repr

/-- One instruction to the printer after all layout decisions have been taken; the last three and
`tok` and `comment` are also what the printer outputs.
* `tok`: text of a token
* `comment`: text of a comment
* `suffix`: a comment that is postponed to the end of the line (`line_suffix`); with `some e` it is
  preceded by a line break (`e`: empty line), with `none` by a space
* `space`: `space()`
* `nl e ind`: a line break at the given indentation, `e`: `empty_line()`
* `blank`: blanks printed as they are
* `rnl`: a line feed printed as text (biome_formatter, external; what the rules in
crates/air_r_formatter/src/r/auxiliary write) -/
inductive El where
  | suffix (line : Option Bool) (ind : Nat) (t : List Byte)
  | space
  | nl (empty : Bool) (ind : Nat)
  | tok (t : Tok)
  | comment (t : List Byte)
  | blank (bs : List Byte)
  | rnl
  deriving DecidableEq, Repr

/-- `LineMode` of biome_formatter. (biome_formatter, external; e.g.
crates/air_r_formatter/src/joiner_ext.rs:46-77) -/
inductive Line | soft | softOrSpace | hard | empty
  deriving DecidableEq, Repr

/-- A document. `expand_parent` elements are left out: they only restrict the layouts.
* `suffix`: `line_suffix`
* `pad`: any number of incompressible blanks (`write_spaces`, call_arguments_table.rs:506-511; how
  many is the subject of Verif.Model.Table)
* `rnl`: `text("\n")`
* `noSoft`: written through `RemoveSoftLinesBuffer` and given up if it breaks nevertheless
  (function_definition.rs:69-80)
* `alt`: variants of a best-fitting element, or the outcome of a test on printed text
* `cell`: printed on its own without soft line breaks and then written as text
  (call_arguments_table.rs:451-483)
* `verb`: source text -/
inductive Doc where
  | nil
  | cat (a b : Doc)
  | tok (t : Tok)
  | comment (t : List Byte)
  | suffix (line : Option Bool) (t : List Byte)
  | space
  | pad
  | line (l : Line)
  | rnl
  | indent (d : Doc)
  | group (expand : Bool) (d : Doc)
  | ifBreaks (d : Doc)
  | noSoft (d : Doc)
  | alt (a b : Doc)
  | cell (d : Doc)
  | verb (es : List El)

infixr:65 " ⊹ " => Doc.cat

/-- Print mode of the enclosing group. (biome_formatter, external; `group`, e.g.
crates/air_r_formatter/src/r/auxiliary/if_statement.rs:77) -/
inductive Mode | flat | expanded
  deriving DecidableEq, Repr

/-- Is the instruction a line break? (auxiliary for `cell`,
crates/air_r_formatter/src/call_arguments_table.rs:453-482) -/
def El.isNl : El → Bool
  | .nl .. | .rnl => true
  | _ => false

/-- Instructions without line breaks and without comments (which force line breaks). (auxiliary for `cell`,
crates/air_r_formatter/src/call_arguments_table.rs:453-482) -/
def El.isInline : El → Bool
  | .tok _ | .space | .blank _ => true
  | _ => false

/-- Printing a table cell on its own: comments postponed to the end of the line end up at the end
of the text. (crates/air_r_formatter/src/call_arguments_table.rs:453-482) -/
def inlineSuffixes (x : List El) : List El :=
  x.filter (fun e => match e with | .suffix .. => false | _ => true) ++
  x.flatMap (fun e => match e with | .suffix _ _ t => [.space, .comment t] | _ => [])

/-- A line break element (`FormatElement::Line`): in a flat group soft line breaks vanish;
`RemoveSoftLinesBuffer` (`ns`) removes them in any group. (biome_formatter, external; used in
crates/air_r_formatter/src/r/auxiliary/function_definition.rs:71,
crates/air_r_formatter/src/call_arguments_table.rs:453) -/
def layLine (ns : Bool) (m : Mode) (i : Nat) : Line → List El
  | .hard => [.nl false i]
  | .empty => [.nl true i]
  | .soft => if ns = true ∨ m = .flat then [] else [.nl false i]
  | .softOrSpace => if ns = true ∨ m = .flat then [.space] else [.nl false i]

/-- `write_spaces` (call_arguments_table.rs:506-511): blanks as text, nothing if there are none. -/
def padEls (n : Nat) : List El := if n = 0 then [] else [.blank (List.replicate n 32)]

/-- `FormatElements::will_break`: the document contains an expanded group or a line break that is not
soft. For elements with several variants all are asked (the real function asks the flattest one), and
conditional content and source text are ignored. (biome_formatter, external; used in
crates/air_r_formatter/src/r/auxiliary/function_definition.rs:77,
crates/air_r_formatter/src/r/auxiliary/call_arguments.rs:291, 309, 831, 845) -/
def Doc.willBreak : Doc → Bool
  | .cat a b => a.willBreak || b.willBreak
  | .line l => l == .hard || l == .empty
  | .rnl => true
  | .indent d => d.willBreak
  | .group ex d => ex || d.willBreak
  | .noSoft d => d.willBreak
  | .alt a b => a.willBreak && b.willBreak
  | _ => false

/-- `Lays ns m i d es`: `es` is a possible sequence of printer instructions for `d` inside a group
printed in mode `m` at indentation level `i`; `ns`: soft line breaks are removed. (biome_formatter, external:
the printer that crates/air_r_formatter/src/lib.rs:325-330 leads to) -/
def Lays (ns : Bool) (m : Mode) (i : Nat) : Doc → List El → Prop
  | .nil, es => es = []
  | .cat a b, es => ∃ x y, es = x ++ y ∧ Lays ns m i a x ∧ Lays ns m i b y
  | .tok t, es => es = [.tok t]
  | .comment t, es => es = [.comment t]
  | .suffix l t, es => es = [.suffix l i t]
  | .space, es => es = [.space]
  | .pad, es => ∃ n, es = padEls n
  | .line l, es => es = layLine ns m i l
  | .rnl, es => es = [.rnl]
  | .indent d, es => Lays ns m (i + 1) d es
  | .group ex d, es => ∃ m', (ns = false → ex = true → m' = .expanded) ∧ Lays ns m' i d es
  | .ifBreaks d, es => (m = .expanded ∧ Lays ns m i d es) ∨ (m = .flat ∧ es = [])
  | .noSoft d, es => ∃ m', Lays true m' i d es ∧ es.all El.isInline = true ∧ d.willBreak = false
  | .alt a b, es => Lays ns m i a es ∨ Lays ns m i b es
  | .cell d, es => ∃ x m', Lays true m' 0 d x ∧ x.any El.isNl = false ∧ es = inlineSuffixes x
  | .verb x, es => es = x

/-! ## The printer -/

/-- State of the printer (`biome_formatter::printer::PrinterState`): `started`: the current line is
not empty; `space`: a space is pending; `ind`: indentation that is pending; `emptyLine`: an empty
line was just printed; `sfx`: postponed comments. (biome_formatter, external: the printer that
crates/workspace/src/format.rs:64-83 calls) -/
structure PState where
  started : Bool := false
  space : Bool := false
  ind : Nat := 0
  emptyLine : Bool := false
  sfx : List (Option Bool × Nat × List Byte) := []

/-- `print_text`: pending indentation, pending space, then the text. (biome_formatter, external;
crates/workspace/src/format.rs:64-83) -/
def printText (s : PState) (e : El) : List El × PState :=
  ((if s.ind = 0 then [] else [.blank (List.replicate s.ind 9)]) ++
    (if s.space then [.blank [32]] else []) ++ [e],
   { s with started := true, space := false, ind := 0, emptyLine := false })

/-- A line break: only if the current line is not empty; an empty line unless one was just
printed. Indentation is recorded as one blank per level (how a level is rendered is a setting).
(biome_formatter, external; crates/workspace/src/format.rs:64-83) -/
def printNl (s : PState) (e : Bool) (i : Nat) : List El × PState :=
  ((if s.started then [.rnl] else []) ++
    (if e && (s.started || !s.emptyLine) then [.rnl] else []),
   { s with
      started := false, space := false, ind := i,
      emptyLine := e || (s.emptyLine && !s.started) })

/-- `Space`: only on a line that is not empty. (biome_formatter, external; crates/workspace/src/format.rs:64-83) -/
def printSpace (s : PState) : PState := { s with space := s.space || s.started }

/-- One postponed comment. (biome_formatter, external; crates/workspace/src/format.rs:64-83) -/
def printSuffix (s : PState) : Option Bool × Nat × List Byte → List El × PState
  | (none, _, t) => printText (printSpace s) (.comment t)
  | (some e, i, t) =>
    let (a, s) := printNl s e i
    let (b, s) := printText s (.comment t)
    (a ++ b, s)

/-- Postponed comments in order. (biome_formatter, external; crates/workspace/src/format.rs:64-83) -/
def printSuffixes (s : PState) : List (Option Bool × Nat × List Byte) → List El × PState
  | [] => ([], s)
  | x :: xs =>
    let (a, s) := printSuffix s x
    let (b, s) := printSuffixes s xs
    (a ++ b, s)

/-- `flush_line_suffixes`. (biome_formatter, external; crates/workspace/src/format.rs:64-83) -/
def flush (s : PState) : List El × PState :=
  printSuffixes { s with sfx := [] } s.sfx

/-- One printer instruction. (biome_formatter, external; crates/workspace/src/format.rs:64-83) -/
def printEl (s : PState) : El → List El × PState
  | .suffix l i t => ([], { s with sfx := s.sfx ++ [(l, i, t)] })
  | .space => ([], printSpace s)
  | .nl e i =>
    let (a, s) := flush s
    let (b, s) := printNl s e i
    (a ++ b, s)
  | .rnl =>
    let (a, s) := printText s .rnl
    (a, { s with started := false })
  | e => printText s e

/-- All instructions, then the remaining postponed comments. (biome_formatter, external;
crates/workspace/src/format.rs:64-83) -/
def printEls (s : PState) : List El → List El
  | [] => (flush s).1
  | e :: es => (printEl s e).1 ++ printEls (printEl s e).2 es

/-- The printed file as a sequence of tokens, comments, blanks and line feeds. (biome_formatter, external;
crates/workspace/src/format.rs:64-83) -/
def emit (es : List El) : List El := printEls {} es

/-! ## Reading printed instructions -/

/-- Where the reader of a file is: at the start of a line or after `;` (`fresh`), after a token
(`inside`), in a comment. (a reader of the output of crates/workspace/src/format.rs:64-83; not part of the code) -/
inductive RState | fresh | inside | comment
  deriving DecidableEq, Repr

/-- Effect of everything but tokens on the reader. (a reader of the output of
crates/workspace/src/format.rs:64-83; not part of the code) -/
def RState.after (s : RState) : El → RState
  | .nl .. | .rnl => .fresh
  | .comment _ => .comment
  | .blank bs => if s = .inside ∧ bs.contains 59 then .fresh else s
  | .tok _ => if s = .comment then .comment else .inside
  | _ => s

/-- The tokens an R parser sees in the printed text, each with whether it is separated from the
previous one by a line break (or `;`). Tokens after a comment on the same line are not seen. (a reader of the
output of crates/workspace/src/format.rs:64-83; not part of the code) -/
def seen (s : RState) : List El → List (Bool × Tok)
  | [] => []
  | e :: es =>
    (match e with
     | .tok t => if s = .comment then [] else [(s = .fresh, t)]
     | _ => []) ++ seen (s.after e) es

/-- The state at the end. (a reader of the output of crates/workspace/src/format.rs:64-83; not part of the code) -/
def endState (s : RState) : List El → RState
  | [] => s
  | e :: es => endState (s.after e) es

/-- All tokens that are printed. (what the output of crates/workspace/src/format.rs:64-83 consists of) -/
def printedToks : List El → List Tok
  | [] => []
  | .tok t :: es => t :: printedToks es
  | _ :: es => printedToks es

/-- All comments that are printed. (what the output of crates/workspace/src/format.rs:64-83 consists of) -/
def printedComments : List El → List (List Byte)
  | [] => []
  | .comment t :: es => t :: printedComments es
  | .suffix _ _ t :: es => t :: printedComments es
  | _ :: es => printedComments es

/-- The bytes of the printed file with line feeds (the blank 9 stands for one level of
indentation). (`Printed::into_code`, crates/workspace/src/format.rs:64-83; external) -/
def render : List El → List Byte
  | [] => []
  | .tok t :: es => t.text ++ render es
  | .comment t :: es => t ++ render es
  | .blank bs :: es => bs ++ render es
  | .rnl :: es => 10 :: render es
  | .suffix _ _ t :: es => t ++ render es
  | .space :: es => 32 :: render es
  | .nl .. :: es => 10 :: render es

end Verif.Format
