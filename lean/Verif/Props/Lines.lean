import Verif.Props.Format
import Verif.Lemmas.FormatBlock

/-!
# C42: blank lines
-/

namespace Verif.Format
open Verif.Syntax Ex

/-- C42 at top level: the formatted file is a listing of the statements of the source, one after the
other on lines of their own, with the blank lines of the source between them, but at most two. Before
and after it there is no token, and nothing at all if no comments are attached to the file. -/
theorem C42_top (o : Opts) (x : Root) (m : Mode) (els : List El) (hs : rootSuppressed o x.es = false)
    (hne : x.es ≠ .nil) (h : Lays false m 0 (fmtRoot o x) els) :
    ∃ pre body post, emit els = pre ++ body ++ [.rnl] ++ post ∧ Listing o true 2 0 x.es body ∧
      printedToks pre = [] ∧ printedToks post = [] ∧ (x.ann = {} → pre = [] ∧ post = []) := by
  rw [fmtRoot, hs, if_neg (by decide)] at h
  obtain ⟨p, y, rfl, hp, z, w, rfl, ⟨b, u, rfl, hb, (rfl : u = _)⟩, v, q, rfl, hv, hq⟩ := h
  have e1 : p ++ (b ++ layLine false m 0 .hard ++ (v ++ q)) = p ++ ((b ++ [.nl false 0]) ++ (v ++ q)) :=
    rfl
  rw [e1]
  generalize hz : b ++ [El.nl false 0] = z
  have hF : Fresh 0 (run {} p).2 := leading_fresh _ _ _ _ _ _ hp ⟨rfl, rfl, rfl, rfl⟩
  obtain ⟨body, h1, h2, h3⟩ := listing o {} true x.es false m 0 0 _ b hne (fun _ => rfl) hF hb
  rw [hz] at h1 h3
  rw [emit, printEls_run, run_append, run_append]
  dsimp only
  rw [h1]
  refine ⟨(run {} p).1, body, (run (run (run {} p).2 z).2 (v ++ q)).1 ++
    (flush (run (run (run {} p).2 z).2 (v ++ q)).2).1, by simp [indentation], h2, ?_, ?_, ?_⟩
  · rw [printedToks_run, leading_noTok _ _ _ _ _ hp]
  · rw [printedToks_append, printedToks_run, flush_noTok, printedToks_append,
      danglingSoft_noTok _ _ _ _ _ hv, trailing_noTok _ _ _ _ _ _ hq]
    rfl
  · intro ha
    rw [ha] at hp hv hq
    cases hp
    cases hv
    cases hq
    refine ⟨rfl, ?_⟩
    simp only [List.append_nil, run, List.nil_append, flush]
    rw [show (run {} z).2.sfx = [] from h3.2.2.2]
    rfl

/-- C42 inside of braces: wherever there is a block in a file (without skip and table directives), the
formatted text has an opening brace, then a listing of the statements of the block, each on lines of its
own, with a blank line between two of them if the source has one or more there, and a closing brace. -/
theorem C42_block (o : Opts) (x : Root) (m : Mode) (els : List El) (hs : rootSuppressed o x.es = false)
    (ho : x.es.ordinary o = true) (h : Lays false m 0 (fmtRoot o x) els)
    (a : Ann) (l r : Token) (es : Exprs) (hne : es ≠ .nil) (hc : curlies es = false)
    (hb : Withins (.braced a l es r) x.es) :
    ∃ pre cs i body post,
      emit els = pre ++ [.tok (outTok l)] ++ cs ++ [.rnl] ++ indentation (i + 1) ++ body ++
        [.rnl] ++ indentation i ++ [.tok (outTok r)] ++ post ∧
      printedToks cs = [] ∧ Listing o false 1 (i + 1) es body := by
  rw [fmtRoot, hs, if_neg (by decide)] at h
  have hC : Always (IsDoc o (fun _ => True) (.braced a l es r))
      (nodeDoc x.ann (fmtExprs o {} true true x.es ⊹ .line .hard) (danglingSoft x.ann.dangling)) :=
    ((always_fmts o _ _ x.es {} true true (fun _ _ => trivial) ho hb).left _).node _ _
  obtain ⟨d', ns, m', i, y, ⟨hoy, cx, -, rfl, -⟩, hy, p, q, rfl⟩ := hC.lays h
  have ha : a.ordinary o = true := by
    simp only [Expr.ordinary, Bool.and_eq_true] at hoy
    exact hoy.1
  rw [emit, printEls_run, run_append, run_append]
  dsimp only
  obtain ⟨pre, cs, body, post, h1, h2, h3, h4, -⟩ :=
    block_run hne (curlies_none hc cx.inArg) ha hy (run {} p).2
  refine ⟨(run {} p).1 ++ pre, cs, i, body, post ++ (run (run (run {} p).2 y).2 q).1 ++
    (flush (run (run (run {} p).2 y).2 q).2).1, ?_, h4, h2⟩
  rw [h1]
  simp only [List.append_assoc]

/-! ## Examples -/

namespace Ex

/-- A token after the given number of line breaks. -/
def after (n : Nat) (k : Kind) (s : String) : Token :=
  ⟨k, List.replicate n ⟨.newline, [10]⟩, tx s, []⟩

/-- The block of `linesProg`. -/
def block : Expr := .braced {} (after 1 .lCurly "{")
  (list [id (after 3 .ident "d"), id (after 1 .ident "e"), id (after 2 .ident "f"), id (after 9 .ident "g")])
  (after 4 .rCurly "}")

/-- `a`, three blank lines, `b`, one blank line, `c`, a block. -/
def linesProg : Root :=
  file [id (after 2 .ident "a"), id (after 4 .ident "b"), id (after 2 .ident "c"),
    .paren {} (after 1 .lParen "(") block (tk .rParen ")")]

end Ex

example : linesProg.es.ordinary (opts .arrow []) = true := by decide
example : rootSuppressed (opts .arrow []) linesProg.es = false := by decide
example : Withins block linesProg.es := .inr (.inr (.inr (.inl (.inr (.inl rfl)))))
example : text (opts .arrow []) linesProg true true =
    tx "a\n\n\nb\n\nc\n({\n\td\n\te\n\n\tf\n\n\tg\n})\n" := by decide +kernel

end Verif.Format
