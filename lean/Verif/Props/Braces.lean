import Verif.Props.Format
import Verif.Lemmas.FormatTidy

/-!
# C41: braces
-/

namespace Verif.Format
open Verif.Syntax Ex

/-- C41: the tokens of the formatted text are those of a program `es'` that comes from the source by
adding braces to bodies as `Becomess` says: to the body of a function if it is on a new line; to all
branches of an `if` statement if one of the criteria holds, and to all or none of them in any case; to
the bodies of loops always; never where there are braces. -/
theorem C41_autobrace (o : Opts) (x : Root) (m : Mode) (els : List El)
    (hs : rootSuppressed o x.es = false) (h : Lays false m 0 (fmtRoot o x) els) :
    ∃ es', Becomess o true x.es es' ∧ printedToks (emit els) = es'.tokens.map outTok := by
  obtain ⟨es', hR | ⟨hf, -⟩, ht⟩ := C36_rewriting o x m els h
  · exact ⟨es', hR, ht⟩
  · rw [hs] at hf; cases hf

/-- C41: in a file without skip and table directives (and without calls of functions that the settings
list as such), after formatting the bodies of all loops have braces, each chain of `if` and `else`
has braces on all of its branches or on none, has them if it is longer than `if`, `else`, if a branch
is an `if` statement, or if it is in effect position. -/
theorem C41_consistent (o : Opts) (x : Root) (m : Mode) (els : List El)
    (hs : rootSuppressed o x.es = false) (ho : x.es.ordinary o = true)
    (h : Lays false m 0 (fmtRoot o x) els) :
    ∃ es', Becomess o true x.es es' ∧ es'.tidy = true ∧ es'.effects true = true ∧
      printedToks (emit els) = es'.tokens.map outTok := by
  obtain ⟨es', hR, ht⟩ := C41_autobrace o x m els hs h
  obtain ⟨h1, h2, -⟩ := neats o _ _ _ ho hR
  exact ⟨es', hR, h1, h2, ht⟩

/-- C41, under the condition of C38 on comments: this is also how R reads the formatted text. -/
theorem C41_consistent_reads_partial (o : Opts) (x : Root) (m : Mode) (els : List El)
    (hs : rootSuppressed o x.es = false) (hc : x.es.calm = true) (ho : x.es.ordinary o = true)
    (h : Lays false m 0 (fmtRoot o x) els) :
    ∃ es', Becomess o true x.es es' ∧ es'.tidy = true ∧ es'.effects true = true ∧
      Fits (shapes .top .free es') (seen .fresh (emit els)) := by
  obtain ⟨es', hR, hf⟩ := C38_reads_calm_partial o x m els hs hc ho h
  obtain ⟨h1, h2, -⟩ := neats o _ _ _ ho hR
  exact ⟨es', hR, h1, h2, hf⟩

/-- C41: where all bodies have braces, no braces are added or removed. -/
theorem C41_no_double (o : Opts) (x : Root) (m : Mode) (els : List El) (ha : x.es.allBraced = true)
    (h : Lays false m 0 (fmtRoot o x) els) :
    (printedToks (emit els)).map sameOp = (x.es.tokens.map outTok).map sameOp := by
  obtain ⟨es', hR | ⟨-, rfl⟩, ht⟩ := C36_rewriting o x m els h
  · have := sames o _ _ _ ha hR
    rw [ht, List.map_map, List.map_map]
    exact this
  · rw [ht]

/-! ## Examples -/

namespace Ex

/-- `if (k) t else e` with tokens on the same line. -/
def ifElse (k t e : Expr) : Expr :=
  .itee {} (ts .ifKw "if") (ts .lParen "(") k (tk .rParen ")") t {} (ts .elseKw "else") e

/-- `x <- e`. -/
def set (e : Expr) : Expr := .binary {} (id (tk .ident "x")) (ts .assign "<-") e

/-- `x <- if (a) b else if (c) d`, on the next line `while (a) x <- if (a) b else c`. -/
def braceProg : Root := file
  [set (ifElse (id (tk .ident "a")) (id (ts .ident "b"))
     (.ite {} (ts .ifKw "if") (ts .lParen "(") (id (tk .ident "c")) (tk .rParen ")")
       (id (ts .ident "d")))),
   .while_ {} (tn .whileKw "while") (ts .lParen "(") (id (tk .ident "a")) (tk .rParen ")")
     (set (ifElse (id (tk .ident "a")) (id (ts .ident "b")) (id (ts .ident "c"))))]

end Ex

example : braceProg.es.ordinary (opts .arrow [tx "f"]) = true := by decide
example : braceProg.es.calm = true := by decide
example : rootSuppressed (opts .arrow []) braceProg.es = false := by decide
example : braceProg.es.tidy = false := by decide
example : prog.es.effects true = false := by decide
example : text (opts .arrow []) braceProg true false =
    tx ("x <- if (a) {\n\tb\n} else if (c) {\n\td\n}\n" ++
        "while (a) {\n\tx <- if (a) b else c\n}\n") := by decide +kernel

/-- `repeat {}` and `function(x) { x }` have all braces. -/
example : (list [.repeat_ {} (tk .repeatKw "repeat") (.braced {} (tk .lCurly "{") .nil (tk .rCurly "}")),
    .func {} (tn .functionKw "function") {} (tk .lParen "(") .nil (tk .rParen ")")
      (.braced {} (tk .lCurly "{") (list [id (tk .ident "x")]) (tk .rCurly "}"))]).allBraced = true := by
  decide

/-! ## Where the code does not do what the documentation says

"Any existing part of the if statement spans multiple lines" and "any existing part of the function
definition spans multiple lines" (`docs/formatter.qmd`, Autobracing): the code only looks at line
breaks in front of the branches and of `else`, of the body. -/

/-- `x <- if (`, `a`, `) b`. -/
def Ex.multilineIf : Root := file
  [set (.ite {} (ts .ifKw "if") (ts .lParen "(") (id (tn .ident "a")) (tn .rParen ")")
    (id (ts .ident "b")))]

/-- `function(a,`, `b) a`. -/
def Ex.multilineFunction : Root := file
  [.func {} (tk .functionKw "function") {} (tk .lParen "(")
    (.cons (.val {} (id (tk .ident "a"))) (tk .comma ",") (.last (.val {} (id (tn .ident "b")))))
    (tk .rParen ")") (id (ts .ident "a"))]

/-- The condition of an `if` statement spans several lines, no braces are added. -/
theorem C41_multiline_if_not_braced :
    ∃ els, Lays false .expanded 0 (fmtRoot (opts .preserve []) multilineIf) els ∧
      render (emit els) = tx "x <- if (a) b\n" :=
  ⟨_, lays_fmtRoot _ _ true _ _, by decide +kernel⟩

/-- The parameters of a function definition span several lines, no braces are added. -/
theorem C41_multiline_function_not_braced :
    ∃ els, Lays false .expanded 0 (fmtRoot (opts .preserve []) multilineFunction) els ∧
      render (emit els) = tx "function(a, b) a\n" :=
  ⟨_, lays_fmtRoot _ _ true _ _, by decide +kernel⟩

end Verif.Format
