import Verif.Model.Text

/-!
# Line index and position conversion

`biome_line_index::LineIndex` is an external crate that is not part of /repo; it is transcribed
here from its published source (a newline table plus, per line, the list of non-ASCII characters).
The functions of `crates/aether_lsp_utils/src/proto/{from,to}_proto.rs` are modelled on top of it.
-/

namespace Verif.LineIndex
open Verif.Text

/-- `biome_line_index::WideChar`: start and end column (in bytes) of a non-ASCII character. (biome_line_index,
external; used in crates/aether_lsp_utils/src/proto/to_proto.rs:16-45) -/
structure WideChar where
  start : Nat
  stop : Nat
  deriving DecidableEq, Repr

/-- What the index stores about one line: `newlines[i]` (offset of its first byte) and
`line_wide_chars.get(i)` (absent = empty). The crate keeps a vector and a hash map; here the two are
stored together per line. (biome_line_index, external; used in
crates/aether_lsp_utils/src/proto/to_proto.rs:16-45) -/
structure Line where
  start : Nat
  wide : List WideChar
  deriving DecidableEq, Repr

/-- `biome_line_index::LineIndex` (external; used in crates/aether_lsp_utils/src/proto/to_proto.rs:16-45). -/
abbrev Index := List Line

/-- Loop of `LineIndex::new` (external): `cur` is the line being read, `col` its byte column. Only
`\n` ends a line. (biome_line_index, external; used in crates/aether_lsp_utils/src/proto/from_proto.rs:81-125) -/
def newGo : List Char → Line → Nat → Index
  | [], cur, _ => [cur]
  | c :: cs, cur, col =>
    if c = '\n' then cur :: newGo cs { start := cur.start + col + 1, wide := [] } 0
    else
      newGo cs
        { cur with
          wide := if c.utf8Size = 1 then cur.wide
                  else cur.wide ++ [{ start := col, stop := col + c.utf8Size }] }
        (col + c.utf8Size)

/-- `LineIndex::new` (external). (biome_line_index, external; used in
crates/aether_lsp_utils/src/proto/from_proto.rs:81-125) -/
def new (t : List Char) : Index := newGo t { start := 0, wide := [] } 0

/-- `biome_line_index::WideEncoding` together with `PositionEncoding`
(crates/aether_lsp_utils/src/proto.rs:6-10). -/
inductive Encoding | utf8 | utf16 | utf32
  deriving DecidableEq, Repr

/-- `WideChar::wide_len` (external): from the byte length of the character. For UTF-8 positions the
conversion is not used; the value makes it the identity. (biome_line_index, external; used in
crates/aether_lsp_utils/src/proto/to_proto.rs:16-31) -/
def wideLen (enc : Encoding) (len : Nat) : Nat :=
  match enc with
  | .utf8 => len
  | .utf16 => if len = 4 then 2 else 1
  | .utf32 => 1

/-- Loop of `LineIndex::utf8_to_wide_col` (external). (biome_line_index, external; used in
crates/aether_lsp_utils/src/proto/to_proto.rs:16-31) -/
def toWideGo (enc : Encoding) (col : Nat) : List WideChar → Nat → Nat
  | [], res => res
  | c :: cs, res =>
    if c.stop ≤ col then
      toWideGo enc col cs (res - ((c.stop - c.start) - wideLen enc (c.stop - c.start)))
    else res

/-- Loop of `LineIndex::wide_to_utf8_col` (external). (biome_line_index, external; used in
crates/aether_lsp_utils/src/proto/from_proto.rs:12-31) -/
def toUtf8Go (enc : Encoding) : List WideChar → Nat → Nat
  | [], col => col
  | c :: cs, col =>
    if col > c.start then
      toUtf8Go enc cs (col + ((c.stop - c.start) - wideLen enc (c.stop - c.start)))
    else col

/-- `lsp_types::Position`. (biome_line_index, external; used in
crates/aether_lsp_utils/src/proto/from_proto.rs:12-45) -/
structure Pos where
  line : Nat
  character : Nat
  deriving DecidableEq, Repr

/-- `lsp_types::Range`. (biome_line_index, external; used in
crates/aether_lsp_utils/src/proto/from_proto.rs:48-65) -/
structure LRange where
  start : Pos
  stop : Pos
  deriving DecidableEq, Repr

/-- The wide characters of a line, `[]` for a line that does not exist (missing map key). (biome_line_index,
external; used in crates/aether_lsp_utils/src/proto/to_proto.rs:16-31) -/
def wideAt (idx : Index) (line : Nat) : List WideChar :=
  match idx[line]? with
  | some l => l.wide
  | none => []

/-- `line_col_from_position` (from_proto.rs:12-30) including `LineIndex::to_utf8`: byte column. -/
def lineColFromPosition (enc : Encoding) (idx : Index) (p : Pos) : Pos :=
  match enc with
  | .utf8 => p
  | enc => { line := p.line, character := toUtf8Go enc (wideAt idx p.line) p.character }

/-- `offset_from_position` (from_proto.rs:34-44) including `LineIndex::offset`; `none` is the error
"out of range". -/
def offsetFromPosition (enc : Encoding) (idx : Index) (p : Pos) : Option Nat :=
  let lc := lineColFromPosition enc idx p
  (idx[lc.line]?).map fun l => l.start + lc.character

/-- `text_range` (from_proto.rs:48-56); `none` is the error or the panic of `TextRange::new` for
`start > end`. -/
def textRange (enc : Encoding) (idx : Index) (r : LRange) : Option (Nat × Nat) :=
  match offsetFromPosition enc idx r.start, offsetFromPosition enc idx r.stop with
  | some s, some e => if s ≤ e then some (s, e) else none
  | _, _ => none

/-- `LineIndex::line_col` (external): `newlines.partition_point(|it| it <= offset) - 1`. The table is
sorted, so the partition point is the length of the prefix satisfying the predicate. (biome_line_index,
external; used in crates/aether_lsp_utils/src/proto/to_proto.rs:34-45) -/
def lineCol (idx : Index) (offset : Nat) : Option Pos :=
  let line := (idx.takeWhile fun l => decide (l.start ≤ offset)).length - 1
  (idx[line]?).map fun l => { line := line, character := offset - l.start }

/-- `position_from_line_col` (to_proto.rs:16-30) including `LineIndex::to_wide`. -/
def positionFromLineCol (enc : Encoding) (idx : Index) (p : Pos) : Pos :=
  match enc with
  | .utf8 => p
  | enc => { line := p.line, character := toWideGo enc p.character (wideAt idx p.line) p.character }

/-- `position_from_offset` (to_proto.rs:34-44). -/
def positionFromOffset (enc : Encoding) (idx : Index) (offset : Nat) : Option Pos :=
  (lineCol idx offset).map (positionFromLineCol enc idx)

/-- `range` (to_proto.rs:48-56). -/
def range (enc : Encoding) (idx : Index) (s e : Nat) : Option LRange :=
  match positionFromOffset enc idx s, positionFromOffset enc idx e with
  | some a, some b => some { start := a, stop := b }
  | _, _ => none

end Verif.LineIndex
