import Verif.Lemmas.TextChanges
import Verif.Props.TextEdit

/-!
# C09 – C11: document synchronisation and editor edits
-/

namespace Verif.TextChanges
open Verif.Text Verif.LineIndex Verif.LineEnding

/-! ## C09: incremental synchronisation -/

/-- C09: for every list of changes that is meaningful (each range exists in the text resulting from
the previous change), the server ends up with the text obtained by applying them one after the other.
In particular it does not panic. -/
theorem C09_sequential (enc : Encoding) (t t' : List Char) (changes : List Change)
    (h : Steps enc t changes t') :
    ∃ idx, applyTextChanges enc t changes (LineIndex.new t) = some (t', idx) := by
  obtain ⟨h1, h2⟩ := h.ref
  have := apply_of_ref h2 h1
  simp only [Option.map_eq_some_iff] at this
  obtain ⟨⟨t1, idx⟩, h3, rfl⟩ := this
  exact ⟨idx, h3⟩

/-- C09: reusing the line index never matters. For all changes (also with positions that do not
exist), as long as no range ends on an earlier line than it starts, the result (text or panic) is that
of rebuilding the line index before each change; changes before the last full-document change are
irrelevant. -/
theorem C09_index_reuse (enc : Encoding) (t : List Char) (pre post : List Change)
    (hr : ∀ c ∈ post, ∀ r, c.range = some r → r.start.line ≤ r.stop.line)
    (h : (pre = [] ∧ ∀ c ∈ post, c.range ≠ none) ∨
      ∃ f rest, post = f :: rest ∧ f.range = none ∧ ∀ c ∈ rest, c.range ≠ none) :
    (applyTextChanges enc t (pre ++ post) (LineIndex.new t)).map Prod.fst =
      refChanges enc post t := by
  have noFull : ∀ l : List Change, (∀ c ∈ l, c.range ≠ none) → lastFull l = none := by
    intro l
    induction l with
    | nil => intro _; rfl
    | cons c l ih =>
      intro hl
      have h1 := hl c (by simp)
      simp only [lastFull, ih (fun c hc => hl c (by simp [hc]))]
      cases hc : c.range with
      | none => exact absurd hc h1
      | some r => rfl
  rcases h with ⟨rfl, h⟩ | ⟨f, rest, rfl, hf, h⟩
  · simp only [List.nil_append, applyTextChanges, noFull post h]
    refine changesGo_eq_ref enc post t _ _ (.inr rfl) fun c hc => ?_
    cases hr' : c.range with
    | none => exact absurd hr' (h c hc)
    | some r => exact ⟨r, rfl, hr c hc r hr'⟩
  · have hl : lastFull (pre ++ f :: rest) = some (f.text, rest) := by
      induction pre with
      | nil => simp [lastFull, noFull rest h, hf]
      | cons c pre ih => simp [lastFull, ih]
    simp only [applyTextChanges, hl, normalize_eq', refChanges, hf]
    refine changesGo_eq_ref enc rest _ _ _ (.inl fun i hi => absurd hi (by omega)) fun c hc => ?_
    cases hr' : c.range with
    | none => exact absurd hr' (h c hc)
    | some r => exact ⟨r, rfl, hr c (by simp [hc]) r hr'⟩

/-- C09: the server tracks the editor's buffer, whatever its line endings: if the editor's buffer
goes from `b` to `b'` by the changes it sends (positions by the protocol's own definition of lines), and
no text contains a CR that is not part of a CR LF, then the server's text goes from the LF version of
`b` to the LF version of `b'`. -/
theorem C09_tracks_editor (enc : Encoding) (b b' : List Char) (changes : List Change)
    (h : LspSteps enc b changes b') (hb : NoLoneCr b) (hc : ∀ c ∈ changes, NoLoneCr c.text) :
    ∃ idx, applyTextChanges enc (replaceCrlf '\r' '\n' b) changes
      (LineIndex.new (replaceCrlf '\r' '\n' b)) = some (replaceCrlf '\r' '\n' b', idx) :=
  C09_sequential enc _ _ _ (h.steps hb hc).1

/-- Two changes, the second before the first (index reused), on a CRLF buffer with a wide character. -/
def exChanges : List Change :=
  [{ range := some { start := lspPos .utf16 "é\r\n🎉".toList,
                     stop := lspPos .utf16 "é\r\n🎉b".toList }, text := "x\r\ny".toList },
   { range := some { start := lspPos .utf16 "é".toList, stop := lspPos .utf16 "é".toList },
     text := "z".toList }]

example : LspSteps .utf16 "é\r\n🎉b".toList exChanges "éz\r\n🎉x\r\ny".toList := by
  refine .cons (.incremental "é\r\n🎉".toList "b".toList [] _ ?_ ?_)
    (.cons (.incremental "é".toList [] "\r\n🎉x\r\ny".toList _ ?_ ?_) (.nil _))
  · rintro ⟨_, q, h⟩; simp at h
  · rintro ⟨_, q, h⟩; simp at h
  · rintro ⟨_, q, h⟩; simp at h
  · rintro ⟨_, q, h⟩; simp at h

example : NoLoneCr "é\r\n🎉b".toList ∧ ∀ c ∈ exChanges, NoLoneCr c.text := by
  have h1 : NoLoneCr (toCrlf '\r' '\n' "é\n🎉b".toList) := toCrlf_noLoneCr _ (by decide)
  have h2 : NoLoneCr (toCrlf '\r' '\n' "x\ny".toList) := toCrlf_noLoneCr _ (by decide)
  have h3 : NoLoneCr "z".toList := noLoneCr_of_no_cr _ (by decide)
  refine ⟨h1, ?_⟩
  intro c hc
  simp [exChanges] at hc
  rcases hc with rfl | rfl
  · exact h2
  · exact h3

example : (applyTextChanges .utf16 "é\n🎉b".toList exChanges
    (LineIndex.new "é\n🎉b".toList)).map Prod.fst = some "éz\n🎉x\ny".toList := by decide

/-- C09 is false for buffers with a lone CR: for the editor the CR ends a line, for the server it does
not, so an insertion in front of the second line is not where the editor made it (here: a panic,
since the server believes there is only one line). -/
theorem C09_lone_cr_desync :
    ∃ b b' changes, LspSteps .utf16 b changes b' ∧
      applyTextChanges .utf16 (replaceCrlf '\r' '\n' b) changes
        (LineIndex.new (replaceCrlf '\r' '\n' b)) = none := by
  refine ⟨"a\rb".toList, "a\rXb".toList,
    [{ range := some { start := lspPos .utf16 "a\r".toList, stop := lspPos .utf16 "a\r".toList },
       text := "X".toList }], ?_, by decide⟩
  refine .cons (.incremental "a\r".toList [] "b".toList _ ?_ ?_) (.nil _)
  · rintro ⟨_, q, h⟩; simp at h
  · rintro ⟨_, q, h⟩; simp at h

/-! ## C10: batches of edits -/

/-- C10: a list of edits (in any order) whose ranges do not overlap and have pairwise different starts
is applied as one simultaneous edit. Missing: edits sharing a start, for which the claim is false, see
below. -/
theorem C10_simultaneous_partial (enc : Encoding) (t new : List Char) (es sorted : List Edit)
    (hp : sorted.Perm es) (h : LfEdits enc [] sorted t new)
    (hd : sorted.Pairwise fun a b => a.range.start ≠ b.range.start) :
    ∃ idx, applyTextEdits enc t es (LineIndex.new t) = some (new, idx) := by
  have hlt : sorted.Pairwise fun a b => a.range.start.lt b.range.start :=
    (h.start_lt.2.and hd).imp (fun ⟨h1, h2⟩ => by
      rcases h1 with h1 | h1
      · exact absurd h1 h2
      · exact h1)
  unfold applyTextEdits
  rw [sort_eq_reverse hp hlt]
  exact C09_sequential enc _ _ _ h.steps

/-- Replace `b` by `XY` and delete the line feed of "ab\ncd". -/
def exEdits : List Edit :=
  [{ range := { start := { line := 0, character := 2 }, stop := { line := 1, character := 0 } },
     newText := [] },
   { range := { start := { line := 0, character := 1 }, stop := { line := 0, character := 2 } },
     newText := "XY".toList }]

example : LfEdits .utf8 [] exEdits.reverse "ab\ncd".toList "aXYcd".toList :=
  .step (keep := ['a']) (del := ['b']) (by decide) (by decide)
    (.step (keep := []) (del := ['\n']) (by decide) (by decide) (.done _ _))

example : exEdits.reverse.Perm exEdits ∧
    exEdits.reverse.Pairwise fun a b => a.range.start ≠ b.range.start :=
  ⟨List.reverse_perm _, by decide⟩

/-- C10 (false in general): two inserts at one position come out in reverse order. The
function's documentation (and the protocol) demand the order of the list. -/
theorem C10_same_position_reversed :
    ∃ es : List Edit, es.map Edit.newText = ["A".toList, "B".toList] ∧
      LfEdits .utf8 [] es "xy".toList "xABy".toList ∧
      (applyTextEdits .utf8 "xy".toList es (LineIndex.new "xy".toList)).map Prod.fst =
        some "xBAy".toList := by
  refine ⟨[{ range := ⟨⟨0, 1⟩, ⟨0, 1⟩⟩, newText := ['A'] }, { range := ⟨⟨0, 1⟩, ⟨0, 1⟩⟩, newText := ['B'] }],
    rfl, ?_, by decide⟩
  exact .step (keep := ['x']) (del := []) (by decide) (by decide)
    (.step (keep := []) (del := []) (by decide) (by decide) (.done _ _))

/-- C10 (false in general): an insert followed by a replacement starting at the same position loses
the inserted text. -/
theorem C10_insert_lost :
    ∃ es : List Edit, LfEdits .utf8 [] es "xy".toList "ABy".toList ∧
      (applyTextEdits .utf8 "xy".toList es (LineIndex.new "xy".toList)).map Prod.fst =
        some "Bxy".toList := by
  refine ⟨[{ range := ⟨⟨0, 0⟩, ⟨0, 0⟩⟩, newText := ['A'] }, { range := ⟨⟨0, 0⟩, ⟨0, 1⟩⟩, newText := ['B'] }],
    ?_, by decide⟩
  exact .step (keep := []) (del := []) (by decide) (by decide)
    (.step (keep := []) (del := ['x']) (by decide) (by decide) (.done _ _))

/-! ## C11: formatting edits -/

/-- C11: the edits computed for a (CR-free) server text `old` and a formatted text `new` are accepted by
the editor whose buffer is `old` in LF or CRLF form, and applying them simultaneously there yields
`new` in the same form. For every result of the diff library that re-assembles to both texts. -/
theorem C11_edits_reach_formatted (enc : Encoding) (ending : Ending) (chunks : List TextEdit.Chunk)
    (old new : List Char) (hl : chunks.flatMap TextEdit.Chunk.leftText = old)
    (hr : chunks.flatMap TextEdit.Chunk.rightText = new) (hcr : '\r' ∉ old) :
    ∃ es, replaceAllEdit enc (LineIndex.new old) ending chunks = some es ∧
      match ending with
      | .lf => LspEdits enc [] es old new
      | .crlf => LspEdits enc [] es (toCrlf '\r' '\n' old) (toCrlf '\r' '\n' new) := by
  obtain ⟨e, h1, _, h2, _⟩ := TextEdit.C05_diff_correct chunks old new hl hr
  obtain ⟨es, h3, h4⟩ := Edits.lsp (enc := enc) (ending := ending) (pre := []) h2 rfl (by simpa using hcr)
  refine ⟨es, by simpa [replaceAllEdit, h1] using h3, ?_⟩
  cases ending
  · simpa [conv] using h4
  · simpa [conv, toCrlf] using h4

/-- C11: the same for a buffer with mixed line ends: the edits are accepted there, and the LF form of
the result is the formatted text. -/
theorem C11_mixed (enc : Encoding) (ending : Ending) (chunks : List TextEdit.Chunk)
    (buffer new : List Char) (hb : NoLoneCr buffer)
    (hl : chunks.flatMap TextEdit.Chunk.leftText = replaceCrlf '\r' '\n' buffer)
    (hr : chunks.flatMap TextEdit.Chunk.rightText = new) (hcr : '\r' ∉ new) :
    ∃ es result,
      replaceAllEdit enc (LineIndex.new (replaceCrlf '\r' '\n' buffer)) ending chunks = some es ∧
      LspEdits enc [] es buffer result ∧ replaceCrlf '\r' '\n' result = new ∧ NoLoneCr result := by
  obtain ⟨e, h1, _, h2, _⟩ := TextEdit.C05_diff_correct chunks _ new hl hr
  obtain ⟨es, newB, h3, h4, h5, h6⟩ := Edits.lsp_any (enc := enc) (ending := ending) (pre := [])
    (preB := []) h2 rfl hcr (noLoneCr_of_no_cr [] (by simp)) hb rfl rfl
  exact ⟨es, newB, by simpa [replaceAllEdit, h1] using h3, h4, h5, h6⟩

example : ([.equal "a\n".toList, .delete " b".toList, .insert "b\nc".toList] :
      List TextEdit.Chunk).flatMap TextEdit.Chunk.leftText = "a\n b".toList ∧
    '\r' ∉ "a\n b".toList ∧
    replaceAllEdit .utf16 (LineIndex.new "a\n b".toList) .crlf
      [.equal "a\n".toList, .delete " b".toList, .insert "b\nc".toList] =
      some [{ range := ⟨⟨1, 0⟩, ⟨1, 2⟩⟩, newText := "b\r\nc".toList }] := by
  decide

/-- C11: the same for replacing one range (range formatting). -/
theorem C11_range_edit (enc : Encoding) (ending : Ending) (a m b text : List Char)
    (hcr : '\r' ∉ a ++ m ++ b) :
    ∃ es, replaceRangeEdit enc (LineIndex.new (a ++ m ++ b)) ending
        { start := size a, stop := size a + size m } text = some es ∧
      match ending with
      | .lf => LspEdits enc [] es (a ++ m ++ b) (a ++ text ++ b)
      | .crlf => LspEdits enc [] es (toCrlf '\r' '\n' (a ++ m ++ b)) (toCrlf '\r' '\n' (a ++ text ++ b)) := by
  have h2 : TextEdit.Edits 0 [{ insert := text, delete := { start := size a, stop := size a + size m } }]
      (a ++ m ++ b) (a ++ text ++ b) := .step (by simp) (by simp) (.done _ _)
  obtain ⟨es, h3, h4⟩ := Edits.lsp (enc := enc) (ending := ending) (pre := []) h2 rfl (by simpa using hcr)
  have hb : TextEdit.build [{ insert := text, delete := { start := size a, stop := size a + size m } }] =
      some [{ insert := text, delete := { start := size a, stop := size a + size m } }] := by
    simp [TextEdit.build, TextEdit.builderIndel, TextEdit.builderFinish, TextEdit.assertDisjointOrEqual,
      Sort.stableSort, Sort.orderedInsert, TextEdit.checkDisjoint, TextEdit.coalesce, TextEdit.coalesce.go]
  refine ⟨es, ?_, ?_⟩
  · rw [replaceRangeEdit, hb, Option.bind_some]
    simpa using h3
  · cases ending
    · simpa [conv] using h4
    · simpa [conv, toCrlf] using h4

example : '\r' ∉ "x\n".toList ++ "a+b".toList ++ "\n".toList := by decide

end Verif.TextChanges
