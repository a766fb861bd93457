import Verif.Model.FormatRules

/-!
# Tables

Models crates/air_r_formatter/src/call_arguments_table.rs: reading the arguments of a call as rows and
columns, and the padding of the cells. `Verif.Model.FormatRules` leaves the padding open (`Doc.pad`);
`tableEls` below is the instructions with the padding that air computes (`table_lays` in
Verif.Lemmas.Table: it is one of the layouts of `tableRows`).
-/

namespace Verif.Format
open Verif.Syntax

/-- `str::chars().count()` of UTF-8 encoded text: the bytes that are not continuation bytes. (std, external;
crates/air_r_formatter/src/call_arguments_table.rs:425-482) -/
def chars (bs : List Byte) : Nat := bs.countP (fun b => b &&& 0xC0 != 0x80)

/-- `ArgKind` (call_arguments_table.rs:28-37). -/
inductive ArgKind where
  | numeric (int : Nat) (frac : Option Nat)
  | other (text : List Byte)
  deriving DecidableEq, Repr

/-- `ArgKind::width` (call_arguments_table.rs:485-502), `DOT_WIDTH` is 1. -/
def ArgKind.width : ArgKind → Nat
  | .numeric i (some f) => i + 1 + f
  | .numeric i none => i
  | .other t => chars t

/-- `parse_integer` (call_arguments_table.rs:425-433) and `parse_decimal` (call_arguments_table.rs:435-450)
with `s` characters added for a unary operator (call_arguments_table.rs:388-423). `text.len() - 1` cannot
fail as the token has at least the suffix `L`. -/
def numberKind (s : Nat) (integer : Bool) (text : List Byte) : ArgKind :=
  if integer then .numeric (s + (text.length - 1)) (some 0)
  else
    match text.findIdx? (· == 46) with
    | some pos => .numeric (s + pos) (some (text.length - pos - 1))
    | none => .numeric (s + text.length) none

/-- `ArgKind::parse` (call_arguments_table.rs:369-482); `text`: what is printed for an argument that is
not a number. That the text contains a line break, in which case the source text is kept
(call_arguments_table.rs:474-480), is excluded by `Lays` of `Doc.cell`. -/
def parseKind (x : Arg) (text : List Byte) : ArgKind :=
  match x.value with
  | some (.atom _ .rIntegerValue t) => numberKind 0 true t.text
  | some (.atom _ .rDoubleValue t) => numberKind 0 false t.text
  | some (.unary _ op (.atom _ .rIntegerValue t)) =>
    if op.kind = .plus ∨ op.kind = .minus then numberKind 1 true t.text else .other text
  | some (.unary _ op (.atom _ .rDoubleValue t)) =>
    if op.kind = .plus ∨ op.kind = .minus then numberKind 1 false t.text else .other text
  | _ => .other text

/-- `ColumnInfo` (call_arguments_table.rs:39-48). -/
structure ColumnInfo where
  hasDecimal : Bool := false
  maxWidth : Nat := 0
  maxValueWidth : Nat := 0
  maxInteger : Nat := 0
  maxFractional : Nat := 0
  deriving DecidableEq, Repr

/-- Update of a column with a cell (call_arguments_table.rs:267-285). -/
def ColumnInfo.add (c : ColumnInfo) (k : ArgKind) : ColumnInfo :=
  let c := { c with maxWidth := max c.maxWidth k.width, maxValueWidth := max c.maxValueWidth k.width }
  match k with
  | .numeric i f =>
    let c := { c with maxInteger := max c.maxInteger i }
    match f with
    | some f => { c with hasDecimal := true, maxFractional := max c.maxFractional f }
    | none => c
  | .other _ => c

/-- `simple_padding` (call_arguments_table.rs:315-323). -/
def ColumnInfo.simplePadding (c : ColumnInfo) (k : ArgKind) : Nat × Nat :=
  let p := c.maxValueWidth - k.width
  match k with
  | .numeric .. => (p, 0)
  | .other _ => (0, p)

/-- `decimal_padding` (call_arguments_table.rs:325-366). -/
def ColumnInfo.decimalPadding (c : ColumnInfo) (k : ArgKind) : Nat × Nat :=
  let decimal := c.maxInteger + 1 + c.maxFractional
  let target := max c.maxValueWidth decimal
  match k with
  | .numeric i f =>
    let right := match f with
      | some f => c.maxFractional - f
      | none => 1 + c.maxFractional
    (c.maxInteger - i, right + (target - decimal))
  | .other _ => (0, target - k.width)

/-- `padding` (call_arguments_table.rs:307-313), and none for columns of holes
(call_arguments_table.rs:92-97). -/
def ColumnInfo.padding (c : ColumnInfo) (k : ArgKind) : Nat × Nat :=
  if c.maxWidth = 0 then (0, 0)
  else if c.hasDecimal then c.decimalPadding k
  else c.simplePadding k

/-- `ArgData` (call_arguments_table.rs:20-26).
* `body`: the instructions written for the argument and its comments (call_arguments_table.rs:102-130)
* `lines`: `get_lines_before` of the argument; `rowLines`: `lines_before`
  (call_arguments_table.rs:236-241)
* `last`: `is_last_in_list` -/
structure Cell where
  kind : ArgKind
  body : List El
  lines : Nat
  rowLines : Nat
  sep : Option Tok
  last : Bool
  deriving DecidableEq, Repr

/-- State of the loop of `build_table_impl` (call_arguments_table.rs:208-214). -/
structure Build where
  cols : List ColumnInfo := []
  rows : List (List Cell) := []
  cur : List Cell := []

/-- `while cols.len() <= column_index { cols.push(default) }` (call_arguments_table.rs:258-260). -/
def growCols (cols : List ColumnInfo) (j : Nat) : List ColumnInfo :=
  cols ++ List.replicate (j + 1 - cols.length) ({} : ColumnInfo)

/-- One argument (call_arguments_table.rs:236-292). -/
def Build.push (b : Build) (c : Cell) : Build :=
  let b := if c.rowLines > 0 ∧ b.cur ≠ [] then { b with rows := b.rows ++ [b.cur], cur := [] } else b
  { b with
    cols := (growCols b.cols b.cur.length).modify b.cur.length (fun ci => ci.add c.kind),
    cur := b.cur ++ [c] }

/-- `TableInfo` without `remaining` (call_arguments_table.rs:13-18). -/
structure Table where
  rows : List (List Cell)
  cols : List ColumnInfo

/-- `build_table_impl` (call_arguments_table.rs:208-304) on the arguments before the first named one. -/
def buildTable (cs : List Cell) : Table :=
  let b := cs.foldl Build.push {}
  ⟨if b.cur ≠ [] then b.rows ++ [b.cur] else b.rows, b.cols⟩

/-- One cell (call_arguments_table.rs:92-147); `none`: `column_info[col_j]` is out of bounds, or
`FormatError::SyntaxError` for a missing separator. -/
def cellEls (cols : List ColumnInfo) (j : Nat) (c : Cell) : Option (List El) :=
  match cols[j]? with
  | none => none
  | some ci =>
    let p := ci.padding c.kind
    match c.sep with
    | some s =>
      some (padEls p.1 ++ c.body ++ (if c.last then [] else padEls p.2) ++ [.space, .tok s] ++ [.space])
    | none => if c.last then some (padEls p.1 ++ c.body ++ [.space]) else none

/-- The cells of a row from column `j` (call_arguments_table.rs:75-148). -/
def rowEls (cols : List ColumnInfo) : Nat → List Cell → Option (List El)
  | _, [] => some []
  | j, c :: cs =>
    match cellEls cols j c, rowEls cols (j + 1) cs with
    | some a, some b => some (a ++ b)
    | _, _ => none

/-- The line break before a row (call_arguments_table.rs:76-90). -/
def rowBreak (i : Nat) : List Cell → List El
  | [] => []
  | c :: _ => [.nl (1 < c.lines) i]

/-- Further rows. (crates/air_r_formatter/src/call_arguments_table.rs:73-152) -/
def moreRows (cols : List ColumnInfo) (i : Nat) : List (List Cell) → Option (List El)
  | [] => some []
  | r :: rs =>
    match rowEls cols 0 r, moreRows cols i rs with
    | some a, some b => some (rowBreak i r ++ a ++ b)
    | _, _ => none

/-- `formatted_table` (call_arguments_table.rs:73-152) at indentation `i`. -/
def tableEls (i : Nat) (t : Table) : Option (List El) :=
  match t.rows with
  | [] => some []
  | r :: rs =>
    match rowEls t.cols 0 r, moreRows t.cols i rs with
    | some a, some b => some (a ++ b)
    | _, _ => none

/-- `c` is the cell for the entry `d` with some layout of its text (call_arguments_table.rs:100-130,
451-482). -/
def IsCell (i : Nat) (d : ItemDoc) (c : Cell) : Prop :=
  c.lines = d.lines ∧ c.rowLines = d.rowLines ∧ c.sep = d.sep.map outTok ∧
  if d.arg.isNumeric then
    c.kind = parseKind d.arg [] ∧ Lays false .expanded i d.doc c.body
  else
    ∃ a x b m, c.body = a ++ inlineSuffixes x ++ b ∧
      Lays false .expanded i (leadingDoc d.arg.ann.leading) a ∧
      Lays true m 0 d.fields x ∧ x.any El.isNl = false ∧
      Lays false .expanded i (trailingDoc 0 d.arg.ann.trailing) b ∧
      c.kind = parseKind d.arg (render (emit x))

/-- The cells of the entries; `more`: named arguments follow.
(crates/air_r_formatter/src/call_arguments_table.rs:208-304) -/
def Cells (i : Nat) (more : Bool) : List ItemDoc → List Cell → Prop
  | [], cs => cs = []
  | d :: ds, cs => ∃ c cs', cs = c :: cs' ∧ IsCell i d c ∧ c.last = (ds.isEmpty && !more) ∧
      Cells i more ds cs'

end Verif.Format
