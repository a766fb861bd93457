import Verif.Model.LineIndex
import Verif.Model.LineEnding
import Verif.Model.TextEdit

/-!
# Applying editor changes (`crates/aether_lsp_utils/src/proto/from_proto.rs`) and producing editor
edits (`to_proto.rs`)
-/

namespace Verif.TextChanges
open Verif.Text Verif.LineIndex

/-- `lsp_types::TextDocumentContentChangeEvent` (`range_length` is never read). (external;
crates/aether_lsp_utils/src/proto/from_proto.rs:81-125) -/
structure Change where
  range : Option LRange
  text : List Char
  deriving DecidableEq, Repr

/-- `u32::MAX`. (crates/aether_lsp_utils/src/proto/from_proto.rs:81-125) -/
def u32Max : Nat := 4294967295

/-- The last full-document change and the changes after it (from_proto.rs:92-102, `rposition`,
`split_off`, `pop`). -/
def lastFull : List Change → Option (List Char × List Change)
  | [] => none
  | c :: rest =>
    match lastFull rest with
    | some r => some r
    | none => match c.range with
      | none => some (c.text, rest)
      | some _ => none

/-- The `for change in changes` loop (from_proto.rs:104-124): contents, line index and
`last_start_line` are the loop state; `none` is a panic (`expect`, `TextRange::new`, or
`replace_range`). -/
def changesGo (enc : Encoding) : List Change → List Char → Index → Nat → Option (List Char × Index)
  | [], contents, idx, _ => some (contents, idx)
  | c :: rest, contents, idx, lastStart =>
    match c.range with
    | none => none
    | some r =>
      let idx := if r.stop.line ≥ lastStart then LineIndex.new contents else idx
      match textRange enc idx r with
      | none => none
      | some (s, e) =>
        match LineEnding.normalize '\r' '\n' c.text with
        | none => none
        | some text =>
          match replaceRange contents s e text with
          | none => none
          | some contents => changesGo enc rest contents idx r.start.line

/-- `apply_text_changes` (from_proto.rs:81-125). -/
def applyTextChanges (enc : Encoding) (contents : List Char) (changes : List Change) (idx : Index) :
    Option (List Char × Index) :=
  match lastFull changes with
  | some (text, incremental) =>
    match LineEnding.normalize '\r' '\n' text with
    | none => none
    | some contents => changesGo enc incremental contents idx 0
  | none => changesGo enc changes contents idx u32Max

/-- `lsp_types::TextEdit`. (external; crates/aether_lsp_utils/src/proto/to_proto.rs:58-70) -/
structure Edit where
  range : LRange
  newText : List Char
  deriving DecidableEq, Repr

/-- Comparison of `edits.sort_by` (from_proto.rs:146-153): `a` may stand before `b` iff
`b.start` is not greater than `a.start`. -/
def editLe (a b : Edit) : Bool :=
  decide (b.range.start.line < a.range.start.line) ||
    (decide (b.range.start.line = a.range.start.line) &&
      decide (b.range.start.character ≤ a.range.start.character))

/-- `apply_text_edits` (from_proto.rs:134-165). -/
def applyTextEdits (enc : Encoding) (contents : List Char) (edits : List Edit) (idx : Index) :
    Option (List Char × Index) :=
  applyTextChanges enc contents
    ((Sort.stableSort editLe edits).map fun e => { range := some e.range, text := e.newText }) idx

/-- `text_edit` (to_proto.rs:58-70); `none` is the error result. -/
def textEdit (enc : Encoding) (idx : Index) (endings : LineEnding.Ending) (i : TextEdit.Indel) :
    Option Edit :=
  (LineIndex.range enc idx i.delete.start i.delete.stop).map fun r =>
    { range := r,
      newText := match endings with
        | .lf => i.insert
        | .crlf => LineEnding.toCrlf '\r' '\n' i.insert }

/-- `text_edit_vec` (to_proto.rs:72-82). -/
def textEditVec (enc : Encoding) (idx : Index) (endings : LineEnding.Ending)
    (is : List TextEdit.Indel) : Option (List Edit) :=
  is.mapM (textEdit enc idx endings)

/-- `doc_edit_vec` (to_proto.rs:84-100). -/
def docEditVec (enc : Encoding) (idx : Index) (endings : LineEnding.Ending)
    (is : List TextEdit.Indel) : Option (List Change) :=
  (textEditVec enc idx endings is).map (·.map fun e => { range := some e.range, text := e.newText })

/-- `replace_range_edit` (to_proto.rs:102-111); `TextEdit::replace` (text_edit.rs:76-80) is a
builder run with a single call. -/
def replaceRangeEdit (enc : Encoding) (idx : Index) (endings : LineEnding.Ending)
    (range : TextEdit.Range) (replaceWith : List Char) : Option (List Edit) :=
  (TextEdit.build [{ insert := replaceWith, delete := range }]).bind (textEditVec enc idx endings)

/-- `replace_all_edit` (to_proto.rs:113-122), given the chunks the external `dissimilar::diff`
returns for `text` and `replace_with`. -/
def replaceAllEdit (enc : Encoding) (idx : Index) (endings : LineEnding.Ending)
    (chunks : List TextEdit.Chunk) : Option (List Edit) :=
  (TextEdit.diffOf chunks).bind (textEditVec enc idx endings)

end Verif.TextChanges
