import Verif.Props.Skip
import Verif.Props.Table
import Verif.Lemmas.Comments
import Verif.Lemmas.PlacementVerbs

/-!
# C37: comments are printed exactly once
-/

namespace Verif.Format
open Verif.Syntax Ex

/-- C37: every comment of a file is attached to exactly one node, for all files. -/
theorem C37_attached_once (x : Root) :
    (texts x.attach.ann.all ++ texts x.attach.es.comments).Perm x.sourceComments :=
  attach_comments x

theorem printed_rawFile (ts : List Token) (eof : Token) : printedComments (rawFile ts eof) =
    commentTexts (ts.flatMap (fun t => t.leading ++ t.trailing) ++ eof.leading) := by
  have hp : ∀ (l : List Piece), printedComments (l.map pieceEl) = commentTexts l := by
    intro l
    induction l with
    | nil => rfl
    | cons p l ih =>
      rw [List.map_cons]
      cases h : p.kind <;> simp [pieceEl, h, printedComments, ih, commentTexts]
  have h1 : ∀ (ts : List Token) (r : List El), printedComments
      (ts.flatMap (fun t => t.leading.map pieceEl ++ [.tok (outTok t)] ++ t.trailing.map pieceEl) ++ r) =
      commentTexts (ts.flatMap (fun t => t.leading ++ t.trailing)) ++ printedComments r := by
    intro ts r
    induction ts with
    | nil => rfl
    | cons t ts ih =>
      simp only [List.flatMap_cons, List.append_assoc, printedComments_append, hp, commentTexts_append,
        List.cons_append, List.nil_append, printedComments] at ih ⊢
      rw [ih]
  rw [rawFile, h1, hp, commentTexts_append]

/-- C37: every comment of a file is printed exactly once, for every layout, if none is at a place where
it gets lost or duplicated (`Spared`, see below). -/
theorem C37_once_partial (o : Opts) (x : Root) (ht : Spared o x.view (x.view.decos [] true)) (m : Mode)
    (els : List El) (h : Lays false m 0 (fmtRoot o x.attach) els) :
    (printedComments (emit els)).Perm x.sourceComments := by
  refine (printedComments_emit els).trans ?_
  cases hs : rootSuppressed o x.attach.es with
  | true =>
    unfold fmtRoot at h
    rw [if_pos hs] at h
    have h : els = rawFile x.attach.es.tokens x.attach.eof := h
    rw [h, printed_rawFile]
    have : x.attach.es.tokens = x.es.tokens := annotates_tokens _ _ _ _
    rw [this]
    exact .refl _
  | false =>
    exact (Coms.root hs (proper_root x) (verbs_root x ht) _ _ _ _ h).trans (attach_comments x)

/-- C37: in particular if no function and no comment asks to leave code as it is, and no comment stands
on a line of its own between a function and the parenthesis of its call (`handle…` and the default leave
it leading the arguments). -/
theorem C37_once_unskipped_partial (o : Opts) (x : Root) (hf : ∀ n, o.skip n = false)
    (hc : ∀ t ∈ x.sourceComments, o.directive t ≠ some .skip)
    (ha : ∀ d ∈ x.view.decos [] true, (placeComment d).place = .leading →
      (x.view.nodeAt (placeComment d).target).map View.kind ≠ some .rCallArguments) (m : Mode)
    (els : List El) (h : Lays false m 0 (fmtRoot o x.attach) els) :
    (printedComments (emit els)).Perm x.sourceComments := by
  refine C37_once_partial o x ⟨?_, ?_⟩ m els h
  · intro d _ _
    refine ⟨?_, fun _ _ _ => hf⟩
    rw [Bool.eq_false_iff]
    intro h
    unfold Ann.asks at h
    rw [List.any_eq_true] at h
    obtain ⟨c, hm, h⟩ := h
    rw [annAt_eq] at hm
    obtain ⟨d', hd', rfl⟩ := List.mem_map.1 hm
    refine hc d'.text ?_ (beq_iff_eq.1 h)
    rw [← root_decos]
    exact List.mem_map_of_mem (mem_attachedTo.1 hd').1
  · intro _ d hd hl z hz hk
    apply ha d hd hl
    rw [hz, Option.map_some, hk]

/-! ## Examples -/

namespace Ex

/-- A comment on the line before, at the end of the line. -/
def below (c : String) (k : Kind) (s : String) : Token :=
  ⟨k, [⟨.newline, [10]⟩, ⟨.comment, tx c⟩, ⟨.newline, [10]⟩], tx s, []⟩
def beside (k : Kind) (s c : String) : Token :=
  ⟨k, [⟨.whitespace, [32]⟩], tx s, [⟨.whitespace, [32]⟩, ⟨.comment, tx c⟩]⟩

/-- ```
f(a, # 1
  # 2
  , if (b) # 3
  c # 4
  else # 5
  # 6
  d)
# 7
``` -/
def manyComments : Root :=
  ⟨{}, list [.call {} .call (id (tk .ident "f")) {} (tk .lParen "(")
    (.cons (val (id (tk .ident "a"))) (beside .comma "," "# 1")
    (.cons (.hole {}) (below "# 2" .comma ",")
    (.last (val (.itee {} (ts .ifKw "if") (ts .lParen "(") (id (tk .ident "b")) (beside .rParen ")" "# 3")
      (id ⟨.ident, [⟨.newline, [10]⟩], tx "c", [⟨.whitespace, [32]⟩, ⟨.comment, tx "# 4"⟩]⟩) {}
      ⟨.elseKw, [⟨.newline, [10]⟩], tx "else", [⟨.whitespace, [32]⟩, ⟨.comment, tx "# 5"⟩]⟩
      (id (below "# 6" .ident "d")))))))
    (tk .rParen ")")],
    ⟨.eof, [⟨.newline, [10]⟩, ⟨.comment, tx "# 7"⟩, ⟨.newline, [10]⟩], [], []⟩⟩


example : text (opts .arrow []) manyComments.attach true true =
    tx "f(\n\ta, # 1\n\t# 2\n\t,\n\tif (b) {\n\t\t# 3\n\t\t# 4\n\t\tc\n\t} else {\n\t\t# 5\n\t\t# 6\n\t\td\n\t}\n)\n# 7\n" := by
  decide +kernel
example : (∀ t ∈ manyComments.sourceComments, (opts .arrow []).directive t ≠ some .skip) ∧
    (∀ d ∈ manyComments.view.decos [] true, (placeComment d).place = .leading →
      (manyComments.view.nodeAt (placeComment d).target).map View.kind ≠ some .rCallArguments) := by
  decide +kernel
example : ∀ n, (opts .arrow []).skip n = false := fun _ => rfl

/-- `# fmt: skip`, `g( a )  # 1`, and `f( # 2`, `)  # 3`. -/
def someKept : Root := file
  [.call {} .call (id ⟨.ident, skipLine, tx "g", []⟩) {} (tk .lParen "(")
     (.last (val (id (ts .ident "a")))) (beside .rParen ")" "# 1"),
   .call {} .call (id (tn .ident "f")) {}
     ⟨.lParen, [], tx "(", [⟨.whitespace, [32]⟩, ⟨.comment, tx "# 2"⟩]⟩ .nil
     ⟨.rParen, [⟨.newline, [10]⟩], tx ")", [⟨.whitespace, [32]⟩, ⟨.comment, tx "# 3"⟩]⟩]

example : Spared (opts .arrow [tx "f"]) someKept.view (someKept.view.decos [] true) := by
  have h : (∀ d ∈ someKept.view.decos [] true, d.late = false) ∧
      (∀ d ∈ someKept.view.decos [] true, (placeComment d).place = .leading →
        (someKept.view.nodeAt (placeComment d).target).map View.kind ≠ some .rCallArguments) := by
    decide +kernel
  refine ⟨fun d hd hl => ?_, fun _ d hd hl z hz hk => h.2 d hd hl (by rw [hz, Option.map_some, hk])⟩
  rw [h.1 d hd] at hl
  cases hl
example : text (opts .arrow [tx "f"]) someKept.attach true true =
    tx "# fmt: skip\ng( a ) # 1\nf( # 2\n) # 3\n" := by decide +kernel

/-! ## The conditions are needed -/

/-- ```
{
if (a) {
# fmt: skip
b
} # c
else d
}
``` -/
def lostElse : Root := file
  [.braced {} (tk .lCurly "{")
    (list [.itee {} (tn .ifKw "if") (ts .lParen "(") (id (tk .ident "a")) (tk .rParen ")")
      (.braced {} (ts .lCurly "{") (list [id (below "# fmt: skip" .ident "b")])
        ⟨.rCurly, [⟨.newline, [10]⟩], tx "}", [⟨.whitespace, [32]⟩, ⟨.comment, tx "# c"⟩]⟩)
      {} (tn .elseKw "else") (id (ts .ident "d"))])
    (tn .rCurly "}")]

/-- `f(`, `# fmt: skip`, `, b)`. -/
def lostHole : Root := file
  [.call {} .call (id (tk .ident "f")) {} (tk .lParen "(")
    (.cons (.hole {}) (below "# fmt: skip" .comma ",") (.last (val (id (ts .ident "b")))))
    (tk .rParen ")")]

/-- ```
(tribble
# c
(a, {
b
}))
``` -/
def twiceTable : Root := file
  [.paren {} (tk .lParen "(")
    (.call {} .call (id (tk .ident "tribble")) {} (below "# c" .lParen "(")
      (.cons (val (id (tk .ident "a"))) com
        (.last (val (.braced {} (ts .lCurly "{") (list [id (tn .ident "b")]) (tn .rCurly "}")))))
      (tk .rParen ")"))
    (tk .rParen ")")]

end Ex

/-- C37 fails: the comment before `else` leads the first expression in the braces, which is kept as
written together with the comments before it; so it is lost. -/
theorem C37_else_comment_lost :
    lostElse.sourceComments = [tx "# fmt: skip", tx "# c"] ∧
    ∃ els, Lays false .expanded 0 (fmtRoot (opts .arrow []) lostElse.attach) els ∧
      render (emit els) = tx "{\n\tif (a) {\n\t\t# fmt: skip\n\t\tb\n\t} else {\n\t\td\n\t}\n}\n" ∧
      printedComments (emit els) = [tx "# fmt: skip"] :=
  ⟨by decide +kernel, _, lays_fmtRoot _ _ true _ _, by decide +kernel, by decide +kernel⟩

/-- C37 fails: a `# fmt: skip` comment for a hole stands after the (empty) hole, and is lost. -/
theorem C37_hole_comment_lost :
    lostHole.sourceComments = [tx "# fmt: skip"] ∧
    ∃ els, Lays false .expanded 0 (fmtRoot (opts .arrow []) lostHole.attach) els ∧
      render (emit els) = tx "f(, b)\n" :=
  ⟨by decide +kernel, _, lays_fmtRoot _ _ true _ _, by decide +kernel⟩

/-- C37 fails: a comment before the parenthesis of a table that can't be formatted, because an entry needs
several lines, is printed twice. -/
theorem C37_table_comment_twice :
    twiceTable.sourceComments = [tx "# c"] ∧
    ∃ els, Lays false .expanded 0 (fmtRoot (opts .arrow []) twiceTable.attach) els ∧
      render (emit els) = tx "(tribble# c\n# c\n(a, {\nb\n}))\n" ∧
      printedComments (emit els) = [tx "# c", tx "# c"] :=
  ⟨by decide +kernel, lay true false false .expanded 0 (fmtRoot (opts .arrow []) twiceTable.attach),
    lay_lays _ _ _ _ _ _ (by decide +kernel), by decide +kernel, by decide +kernel⟩

end Verif.Format
