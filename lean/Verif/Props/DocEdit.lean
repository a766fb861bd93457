import Verif.Props.TextChanges

/-!
# Edits sent as changes of a document

C90: `doc_edit_vec` followed by `Document::on_did_change`.
-/

namespace Verif.TextChanges
open Verif.Text Verif.LineIndex Verif.LineEnding

/-- C90, where it holds: an edit with one replacement, sent as changes of a document without CR, has the effect of the edit, for
all encodings of positions and both line ends. Missing: edits with more replacements, see `C90_several`. -/
theorem C90_single_partial (enc : Encoding) (ending : Ending) (a m b text : List Char) (ht : '\r' ∉ text) :
    ∃ cs idx, docEditVec enc (LineIndex.new (a ++ m ++ b)) ending
        [{ insert := text, delete := { start := size a, stop := size a + size m } }] = some cs ∧
      applyTextChanges enc (a ++ m ++ b) cs (LineIndex.new (a ++ m ++ b)) = some (a ++ text ++ b, idx) ∧
      TextEdit.apply [{ insert := text, delete := { start := size a, stop := size a + size m } }] (a ++ m ++ b) =
        some (a ++ text ++ b) := by
  have p1 := position_size enc a (m ++ b)
  have p2 := position_size enc (a ++ m) b
  rw [← List.append_assoc] at p1
  rw [size_append] at p2
  have hn : LineEnding.normalize '\r' '\n' (conv ending text) = some text := by
    rw [normalize_eq _ _ (by decide), replaceCrlf_conv ending text ht]
  refine ⟨[{ range := some ⟨posOf enc a, posOf enc (a ++ m)⟩, text := conv ending text }], LineIndex.new (a ++ m ++ b), ?_, ?_, ?_⟩
  · have : textEdit enc (LineIndex.new (a ++ m ++ b)) ending
        { insert := text, delete := { start := size a, stop := size a + size m } } =
        some { range := ⟨posOf enc a, posOf enc (a ++ m)⟩, newText := conv ending text } := by
      simp only [textEdit, LineIndex.range, p1, p2, Option.map_some]
      cases ending <;> rfl
    simp only [docEditVec, textEditVec, List.mapM_cons, this, List.mapM_nil]
    rfl
  · simp only [applyTextChanges, lastFull, changesGo, ite_self, textRange_posOf, hn, replaceRange_append]
  · simp only [TextEdit.apply, TextEdit.Indel.apply, replaceRange_append]

/-- C90 is false for two replacements: all positions are those of the text before the edit, but changes of a document are applied
one after the other. -/
theorem C90_several :
    let edit : List TextEdit.Indel :=
      [{ insert := "xy".toList, delete := { start := 0, stop := 0 } }, { insert := [], delete := { start := 1, stop := 2 } }]
    TextEdit.build edit = some edit ∧
    TextEdit.apply edit "ab".toList = some "xya".toList ∧
    ((docEditVec .utf16 (LineIndex.new "ab".toList) .lf edit).bind fun cs =>
      (applyTextChanges .utf16 "ab".toList cs (LineIndex.new "ab".toList)).map Prod.fst) = some "xab".toList := by
  decide +kernel

/-- `C90_single_partial` for the text of the test in crates/lsp/src/documents.rs:155-173, with CRLF. -/
example : ∃ cs idx, docEditVec .utf8 (LineIndex.new "foo(bar)".toList) .crlf
      [{ insert := "1 +\n2".toList, delete := { start := 4, stop := 7 } }] = some cs ∧
    applyTextChanges .utf8 "foo(bar)".toList cs (LineIndex.new "foo(bar)".toList) = some ("foo(1 +\n2)".toList, idx) ∧
    TextEdit.apply [{ insert := "1 +\n2".toList, delete := { start := 4, stop := 7 } }] "foo(bar)".toList =
      some "foo(1 +\n2)".toList :=
  C90_single_partial .utf8 .crlf "foo(".toList "bar".toList ")".toList "1 +\n2".toList (by decide)

end Verif.TextChanges
