import Verif.Props.Comments
import Verif.Props.Lines
import Verif.Lemmas.StatementsFind

/-!
# C65: comments stay with their statements
-/

namespace Verif.Format
open Verif.Syntax Ex

/-- C65: the formatted file is a sequence of lines, some for every statement of the source, in the order of the source.
The lines of a statement have its tokens (up to braces and assignment operators), before them the comments on the lines
before the statement, and after them the comments at the end of its line; the comments inside of the statement are
printed between its first line and the end of its last line. So no comment changes the statement it belongs to, for every
layout. -/
theorem C65_statements_partial (o : Opts) (x : Root) (hs : rootSuppressed o x.attach.es = false) (hne : x.es ≠ .nil)
    (ht : Spared o x.view (x.view.decos [] true)) (m : Mode) (els : List El)
    (h : Lays false m 0 (fmtRoot o x.attach) els) :
    ∃ outs, emit els = outs.flatten ∧ Recited o [] [] (stations true [] x.eof x.es) outs := by
  rw [fmtRoot, hs, if_neg (by decide), attach_ann x hne] at h
  obtain ⟨p, y, rfl, hp, z, w, rfl, ⟨b, u, rfl, hb, (rfl : u = _)⟩, v, q, rfl, hv, hq⟩ := h
  cases hp
  cases hv
  cases hq
  have hne' : x.attach.es ≠ .nil := by
    intro h
    have hc := root_cared x hne
    rw [h] at hc
    cases he : x.es with
    | nil => exact hne he
    | cons => rw [he] at hc; exact hc
  obtain ⟨outs, h1, h2⟩ := listing_comments o {} true [] [] x.attach.es _ false m 0 0 {} b hne' (fun _ => rfl)
    ⟨rfl, rfl, rfl, rfl⟩ (proper_root x) (verbs_root x ht) (root_cared x hne) hb
  obtain ⟨body, -, -, h3⟩ := listing o {} true x.attach.es false m 0 0 {} b hne' (fun _ => rfl) ⟨rfl, rfl, rfl, rfl⟩ hb
  refine ⟨outs, ?_, h2⟩
  rw [show [] ++ (b ++ layLine false m 0 .hard ++ ([] ++ [])) = b ++ [El.nl false 0] by
    simp [layLine], emit, printEls_run, h1]
  simp only [flush]
  rw [h3.2.2.2]
  simp [printSuffixes]

/-- C65 inside of braces: wherever there is a block in the source (in a file without skip and table directives), the
formatted file has an opening brace, then lines for every statement of the block as in `C65_statements_partial`, then a
closing brace. Some comments move into the block, and nothing else does: those between the head of a loop, function or
condition and its block come first in it; those between `else` and its block likewise, after the ones on lines of their
own before the `else`; those at the end of the line before `else` go to the first statement of the block before it. -/
theorem C65_block_partial (o : Opts) (x : Root) (hs : rootSuppressed o x.attach.es = false) (hg : x.es.gram = true)
    (ht : Spared o x.view (x.view.decos [] true)) (ho : x.attach.es.ordinary o = true) (m : Mode) (els : List El)
    (h : Lays false m 0 (fmtRoot o x.attach) els) (k : Block) (hk : k ∈ x.es.blocks) (hne : k.stmts ≠ .nil)
    (hc : curlies k.stmts = false) :
    ∃ before cs outs i after,
      emit els = before ++ [.tok (outTok k.left)] ++ cs ++ [.rnl] ++ outs.flatten ++ indentation i ++
        [.tok (outTok k.right)] ++ after ∧
      printedToks cs = [] ∧ Recited o k.pre k.post (stations true k.left.trailing k.right k.stmts) outs := by
  obtain ⟨q, a, hn, hcar, hw⟩ := found_root x hg hk
  have hD : ∀ d ∈ x.view.decos [] true, ∃ s, d.Sound x.view s := view_sound fun _ => rfl
  have hcar := hcar hne
  rw [Expr.annotate] at hw
  have hp := proper_annotates hD k.stmts k.right q _ 1 hn.1 Parts.At.self.tok
  have hv : VerbsL o _ := verbs_annotates hD ht k.stmts k.right q _ 1
    (fun i y hi => ⟨hn.child hi, hn.tall braced_not_head i⟩) Parts.At.self.tok
  rw [fmtRoot, hs, if_neg (by decide)] at h
  generalize annAt _ q = a' at hw
  generalize hes : k.stmts.annotate _ q 1 = es' at hw hp hv hcar
  have hne' : es' ≠ .nil := by
    rw [← hes]
    cases hk : k.stmts with
    | nil => exact absurd hk hne
    | cons => intro h; cases h
  have hc' : curlies es' = false := by rw [← hes, curlies_annotate]; exact hc
  have hC : Always (IsDoc o (fun _ => True) (.braced a' k.left es' k.right))
      (nodeDoc x.attach.ann (fmtExprs o {} true true x.attach.es ⊹ .line .hard) (danglingSoft x.attach.ann.dangling)) :=
    ((always_fmts o _ _ x.attach.es {} true true (fun _ _ => trivial) ho hw).left _).node _ _
  obtain ⟨d', ns, m', i, y, ⟨hoy, cx, -, rfl, -⟩, hy, p, q', rfl⟩ := hC.lays h
  have ha : a'.ordinary o = true := by
    simp only [Expr.ordinary, Bool.and_eq_true] at hoy
    exact hoy.1
  rw [emit, printEls_run, run_append, run_append]
  dsimp only
  obtain ⟨before, cs, outs, after, h1, -, h3, -, h5⟩ :=
    block_said hne' (curlies_none hc' cx.inArg) ha hp hv hcar hy (run {} p).2
  refine ⟨(run {} p).1 ++ before, cs, outs, i, after ++ (run (run (run {} p).2 y).2 q').1 ++
    (flush (run (run (run {} p).2 y).2 q').2).1, ?_, h3, h5⟩
  rw [h1]
  simp only [List.append_assoc]

/-! ## Example -/

namespace Ex

/-- ```
# 1

a # 2
# 3
f(x, # 4
y)
# 5

# 6
b # 7
# 8
``` -/
def threeStatements : Root :=
  ⟨{}, list [id ⟨.ident, [⟨.comment, tx "# 1"⟩, ⟨.newline, [10]⟩, ⟨.newline, [10]⟩], tx "a",
      [⟨.whitespace, [32]⟩, ⟨.comment, tx "# 2"⟩]⟩,
    .call {} .call (id (below "# 3" .ident "f")) {} (tk .lParen "(")
      (.cons (val (id (tk .ident "x"))) (beside .comma "," "# 4")
      (.last (val (id (after 1 .ident "y"))))) (tk .rParen ")"),
    id ⟨.ident, [⟨.newline, [10]⟩, ⟨.comment, tx "# 5"⟩, ⟨.newline, [10]⟩, ⟨.newline, [10]⟩, ⟨.comment, tx "# 6"⟩,
      ⟨.newline, [10]⟩], tx "b", [⟨.whitespace, [32]⟩, ⟨.comment, tx "# 7"⟩]⟩],
    ⟨.eof, [⟨.newline, [10]⟩, ⟨.comment, tx "# 8"⟩, ⟨.newline, [10]⟩], [], []⟩⟩

/-- ```
{
if(a) # 1
{
b
} # 2
# 3
else # 4
{
c
}
for(i in x) # 5
{
# 6
d # 7
}
}
``` -/
def blocksProg : Root :=
  ⟨{}, list [.braced {} (tk .lCurly "{") (list [
    .itee {} (after 1 .ifKw "if") (tk .lParen "(") (id (tk .ident "a")) (beside .rParen ")" "# 1")
      (.braced {} (after 1 .lCurly "{") (list [id (after 1 .ident "b")])
        ⟨.rCurly, [⟨.newline,[10]⟩], tx "}", [⟨.whitespace, [32]⟩, ⟨.comment, tx "# 2"⟩]⟩)
      {} ⟨.elseKw, [⟨.newline,[10]⟩, ⟨.comment, tx "# 3"⟩, ⟨.newline,[10]⟩], tx "else",
        [⟨.whitespace, [32]⟩, ⟨.comment, tx "# 4"⟩]⟩
      (.braced {} (after 1 .lCurly "{") (list [id (after 1 .ident "c")]) (after 1 .rCurly "}")),
    .for_ {} (after 1 .forKw "for") (tk .lParen "(") (id (tk .ident "i")) (ts .inKw "in") (id (ts .ident "x"))
      (beside .rParen ")" "# 5")
      (.braced {} (after 1 .lCurly "{") (list [id ⟨.ident, [⟨.newline, [10]⟩, ⟨.comment, tx "# 6"⟩, ⟨.newline, [10]⟩], tx "d",
        [⟨.whitespace, [32]⟩, ⟨.comment, tx "# 7"⟩]⟩]) (after 1 .rCurly "}"))]) (after 1 .rCurly "}")],
    ⟨.eof, [⟨.newline, [10]⟩], [], []⟩⟩

end Ex

example : text (opts .arrow []) blocksProg.attach true true =
    tx ("{\n\tif (a) {\n\t\t# 1\n\t\t# 2\n\t\tb\n\t} else {\n\t\t# 3\n\t\t# 4\n\t\tc\n\t}\n" ++
      "\tfor (i in x) {\n\t\t# 5\n\t\t# 6\n\t\td # 7\n\t}\n}\n") := by decide +kernel
example : blocksProg.es.blocks.map (fun k => (k.pre, k.post)) =
    [([], []), ([tx "# 1"], [tx "# 2"]), ([tx "# 3", tx "# 4"], []), ([tx "# 5"], [])] := by decide +kernel
example : rootSuppressed (opts .arrow []) blocksProg.attach.es = false ∧ blocksProg.es.gram = true ∧
    blocksProg.attach.es.ordinary (opts .arrow []) = true := by decide +kernel
example : Spared (opts .arrow []) blocksProg.view (blocksProg.view.decos [] true) := by
  have h : (∀ d ∈ blocksProg.view.decos [] true, d.late = true →
      (annAt ((blocksProg.view.decos [] true).map Deco.placed) (placeComment d).target).asks (opts .arrow []) .skip = false ∧
      (blocksProg.view.nodeAt (placeComment d).target).map View.kind ≠ some .rCall) ∧
      (∀ d ∈ blocksProg.view.decos [] true, (placeComment d).place = .leading →
        (blocksProg.view.nodeAt (placeComment d).target).map View.kind ≠ some .rCallArguments) := by
    decide +kernel
  refine ⟨fun d hd hl => ⟨(h.1 d hd hl).1, fun z hz hk => absurd ?_ (h.1 d hd hl).2⟩,
    fun _ d hd hl z hz hk => h.2 d hd hl (by rw [hz, Option.map_some, hk])⟩
  rw [hz, Option.map_some, hk]

example : text (opts .arrow []) threeStatements.attach true true =
    tx "# 1\n\na # 2\n# 3\nf(\n\tx, # 4\n\ty\n)\n# 5\n\n# 6\nb # 7\n# 8\n" := by decide +kernel
example : (stations true [] threeStatements.eof threeStatements.es).map
    (fun s => (s.ahead, s.inside, s.behind)) =
      [([tx "# 1"], [], [tx "# 2"]), ([tx "# 3"], [tx "# 4"], []),
       ([tx "# 5", tx "# 6"], [], [tx "# 7", tx "# 8"])] := by decide +kernel
example : rootSuppressed (opts .arrow []) threeStatements.attach.es = false := by decide +kernel
example : Spared (opts .arrow []) threeStatements.view (threeStatements.view.decos [] true) := by
  have h : (∀ d ∈ threeStatements.view.decos [] true, d.late = false) ∧
      (∀ d ∈ threeStatements.view.decos [] true, (placeComment d).place = .leading →
        (threeStatements.view.nodeAt (placeComment d).target).map View.kind ≠ some .rCallArguments) := by
    decide +kernel
  refine ⟨fun d hd hl => ?_, fun _ d hd hl z hz hk => h.2 d hd hl (by rw [hz, Option.map_some, hk])⟩
  rw [h.1 d hd] at hl
  cases hl

end Verif.Format
