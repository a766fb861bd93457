import Verif.Lemmas.ReaderMain
import Verif.Lemmas.AssignGram
import Verif.Lemmas.AssignSettled
import Verif.Props.Format

/-!
# C39: assignment operators are rewritten without changing the program

`readFile` (Verif.Spec.Grammar) is R's parser as a function of tokens and line breaks.
-/

namespace Verif.Format
open Verif.Syntax Ex

/-- The reader finds every program of R's grammar, so a sequence of tokens is a program in at most one
way. -/
theorem C39_reader (es : Exprs) (us : Seen) (hg : es.gram = true) (hf : Fits (shapes .top .free es) us) :
    readFile us = some es.bare := readFile_gram hg hf

/-- C39: the rewritten program is again a program of R's grammar with the same nesting; in particular
`=` assigns only where R allows it. -/
theorem C39_grammar (o : Opts) (es es' : Exprs) (hg : es.gram = true) (hc : es.clear o = true)
    (h : Becomess o true es es') : es'.gram = true := kept_exprs o es es' true hg hc h

/-- C39: R reads the formatted text as the program of the source, apart from the exchange of `=` and
`<-` and from braces around bodies. The conditions are those of C38 on comments, and `clear`. -/
theorem C39_reads_partial (o : Opts) (x : Root) (m : Mode) (els : List El)
    (hs : rootSuppressed o x.es = false) (hT : Tames true o .top {} true x.es)
    (hg : x.es.gram = true) (hc : x.es.clear o = true) (h : Lays false m 0 (fmtRoot o x) els) :
    ∃ es', Becomess o true x.es es' ∧ readFile (seen .fresh (emit els)) = some es'.bare := by
  obtain ⟨es', hB, hf⟩ := C38_reads_partial o x m els hs hT h
  exact ⟨es', hB, readFile_gram (C39_grammar o x.es es' hg hc hB) hf⟩

/-- C39: after rewriting no operator is left that the style asks to replace. -/
theorem C39_settled (o : Opts) (es es' : Exprs) (ho : es.ordinary o = true)
    (h : Becomess o true es es') : es'.settled o.style = true := becomess_settled o es es' true ho h

/-- The tokens in a text without braces. -/
def textWords (els : List El) : List Tok := (printedToks (emit els)).filter (fun t => !isBrace t)

/-- C39: formatting the formatted text rewrites no operator: whatever tree `x'` R's grammar gives to
the formatted text, its formatting has the same tokens up to braces. -/
theorem C39_twice_partial (o : Opts) (x x' : Root) (m m' : Mode) (els els' : List El)
    (hs : rootSuppressed o x.es = false) (ho : x.es.ordinary o = true) (hcm : x.es.calm = true)
    (hg : x.es.gram = true) (hc : x.es.clear o = true) (h : Lays false m 0 (fmtRoot o x) els)
    (hg' : x'.es.gram = true) (hf' : Fits (shapes .top .free x'.es) (seen .fresh (emit els)))
    (h' : Lays false m' 0 (fmtRoot o x') els') :
    textWords els' = textWords els := by
  obtain ⟨es', hB, hf⟩ := C38_reads_calm_partial o x m els hs hcm ho h
  have hb : x'.es.bare = es'.bare := by
    have h1 := readFile_gram hg' hf'
    rw [readFile_gram (C39_grammar o x.es es' hg hc hB) hf] at h1
    exact (Option.some.inj h1).symm
  have hset : x'.es.settled o.style = true := by
    rw [← bares_settled, hb, bares_settled]
    exact C39_settled o x.es es' ho hB
  have ht : x'.es.tokens.map outTok = printedToks (emit els) := by
    rw [← C37_no_token_in_comment_partial o x m els hs (tames_calm _ _ _ _ hcm ho) h, fits_toks hf',
      shapes_toks]
  obtain ⟨es'', hB', ht'⟩ := C36_rewriting o x' m' els' h'
  have hw : words es''.tokens = words x'.es.tokens := by
    rcases hB' with hB' | ⟨-, rfl⟩
    · exact settleds_words o _ _ true hset hB'
    · rfl
  rw [textWords, textWords, ht', ← ht]
  exact hw

mutual
theorem preserve_settled : ∀ (e : Expr) (b : Bool), e.settled .preserve b = true
  | .atom .., b => rfl
  | .str .., b => rfl
  | .paren a l e r, b => preserve_settled e true
  | .braced a l es r, b => preserves_settled es
  | .unary a op e, b => preserve_settled e _
  | .binary a x op y, b => by simp [Expr.settled, wantsOp, preserve_settled x, preserve_settled y]
  | .sel a k x op y, b => by simp [Expr.settled, preserve_settled x, preserve_settled y]
  | .call a k f aa l items r, b => by simp [Expr.settled, preserve_settled f, preserveItems items]
  | .func a kw pa l items r bd, b => by simp [Expr.settled, preserve_settled bd, preserveItems items]
  | .ite a kw l c r t, b => by simp [Expr.settled, preserve_settled c, preserve_settled t]
  | .itee a kw l c r t ea el e, b => by
    simp [Expr.settled, preserve_settled c, preserve_settled t, preserve_settled e]
  | .for_ a kw l v i q r bd, b => by
    simp [Expr.settled, preserve_settled v, preserve_settled q, preserve_settled bd]
  | .while_ a kw l c r bd, b => by simp [Expr.settled, preserve_settled c, preserve_settled bd]
  | .repeat_ a kw bd, b => preserve_settled bd true
theorem preserves_settled : ∀ es : Exprs, es.settled .preserve = true
  | .nil => rfl
  | .cons e es => by simp [Exprs.settled, preserve_settled e, preserves_settled es]
theorem preserveItems : ∀ xs : Items, xs.settled .preserve = true
  | .nil => rfl
  | .last x => preserveArg x
  | .cons x s xs => by simp [Items.settled, preserveArg x, preserveItems xs]
theorem preserveArg : ∀ x : Arg, x.settled .preserve = true
  | .hole _ => rfl
  | .val a e => preserve_settled e false
  | .name a na n q => preserve_settled n false
  | .named a na n q e => by simp [Arg.settled, preserve_settled n, preserve_settled e]
  | .pdef a n da q e => by simp [Arg.settled, preserve_settled n, preserve_settled e]
end

/-- C39: with style `preserve` the tokens other than braces are those of the source, in every file and
every layout. -/
theorem C39_preserve (o : Opts) (x : Root) (m : Mode) (els : List El) (hp : o.style = .preserve)
    (h : Lays false m 0 (fmtRoot o x) els) :
    textWords els = (x.es.tokens.map outTok).filter (fun t => !isBrace t) := by
  obtain ⟨es', hB, ht⟩ := C36_rewriting o x m els h
  rw [textWords, ht]
  rcases hB with hB | ⟨-, rfl⟩
  · exact settleds_words o _ _ true (by rw [hp]; exact preserves_settled _) hB
  · rfl

/-! ## Examples -/

/-- `x = y <- f(z <- 1)`, `if (a <- b) (c <- d) else e <- 2`, `g <- h ? i <- 3`. -/
def Ex.assignProg : Root := file
  [.binary {} (id (tk .ident "x")) (ts .equal "=") (.binary {} (id (ts .ident "y")) (ts .assign "<-")
     (.call {} .call (id (ts .ident "f")) {} (tk .lParen "(")
       (.last (.val {} (.binary {} (id (tk .ident "z")) (ts .assign "<-") (num (ts .rDoubleLiteral "1")))))
       (tk .rParen ")"))),
   .itee {} (tn .ifKw "if") (ts .lParen "(")
     (.binary {} (id (tk .ident "a")) (ts .assign "<-") (id (ts .ident "b"))) (tk .rParen ")")
     (.paren {} (ts .lParen "(") (.binary {} (id (tk .ident "c")) (ts .assign "<-") (id (ts .ident "d")))
       (tk .rParen ")")) {} (ts .elseKw "else")
     (.binary {} (id (ts .ident "e")) (ts .assign "<-") (num (ts .rDoubleLiteral "2"))),
   .binary {} (.binary {} (id (tn .ident "g")) (ts .assign "<-") (id (ts .ident "h"))) (ts .wat "?")
     (.binary {} (id (ts .ident "i")) (ts .assign "<-") (num (ts .rDoubleLiteral "3")))]

example : assignProg.es.gram = true ∧ assignProg.es.clear (opts .equal []) = true ∧
    assignProg.es.clear (opts .arrow []) = true ∧ assignProg.es.calm = true ∧
    assignProg.es.ordinary (opts .equal []) = true := by decide
example : Fits (shapes .top .free assignProg.es) (seen .fresh (rawFile assignProg.es.tokens assignProg.eof)) := by
  decide +kernel
example : text (opts .equal []) assignProg true false =
    tx "x = y = f(z <- 1)\nif (a <- b) {\n\t(c = d)\n} else {\n\te = 2\n}\ng = h?i = 3\n" := by
  decide +kernel
example : text (opts .arrow []) assignProg true false =
    tx "x <- y <- f(z <- 1)\nif (a <- b) {\n\t(c <- d)\n} else {\n\te <- 2\n}\ng <- h?i <- 3\n" := by
  decide +kernel

/-! ## The conditions are needed -/

/-- `a <- b = c`. -/
def Ex.clash : Root := file
  [.binary {} (.binary {} (id (tk .ident "a")) (ts .assign "<-") (id (ts .ident "b"))) (ts .equal "=")
     (id (ts .ident "c"))]

/-- What R reads in a text of three names and two operators. -/
def Ex.toLeft (op1 op2 : Token) : Exprs :=
  (list [.binary {} (.binary {} (id (tk .ident "a")) op1 (id (tk .ident "b"))) op2
    (id (tk .ident "c"))]).bare
def Ex.toRight (op1 op2 : Token) : Exprs :=
  (list [.binary {} (id (tk .ident "a")) op1 (.binary {} (id (tk .ident "b")) op2
    (id (tk .ident "c")))]).bare

/-- C39 fails for `a <- b = c`, which R reads as `(a <- b) = c`: with both styles the formatted text is
grouped the other way. -/
theorem C39_target_clash :
    clash.es.gram = true ∧
    readFile (seen .fresh (rawFile clash.es.tokens clash.eof)) =
      some (toLeft (tk .assign "<-") (tk .equal "=")) ∧
    (∃ els, Lays false .expanded 0 (fmtRoot (opts .arrow []) clash) els ∧
      render (emit els) = tx "a <- b <- c\n" ∧
      readFile (seen .fresh (emit els)) = some (toRight (tk .assign "<-") (tk .assign "<-"))) ∧
    (∃ els, Lays false .expanded 0 (fmtRoot (opts .equal []) clash) els ∧
      render (emit els) = tx "a = b = c\n" ∧
      readFile (seen .fresh (emit els)) = some (toRight (tk .equal "=") (tk .equal "="))) := by
  refine ⟨by decide, readFile_gram (es := clash.es) (p := .free) (by decide) (by decide +kernel),
    ⟨_, lays_fmtRoot _ _ true _ _, by decide +kernel, ?_⟩,
    ⟨_, lays_fmtRoot _ _ true _ _, by decide +kernel, ?_⟩⟩
  · exact readFile_gram (es := toRight (tk .assign "<-") (tk .assign "<-")) (p := .free) (by decide)
      (by decide +kernel)
  · exact readFile_gram (es := toRight (tk .equal "=") (tk .equal "=")) (p := .free) (by decide)
      (by decide +kernel)

/-- `a =`, `# fmt: skip`, `b = c`. -/
def Ex.skipClash : Root := file
  [.binary {} (id (tk .ident "a")) (ts .equal "=")
    (.binary { leading := [⟨tx "# fmt: skip", 1, 1, false⟩] }
      (id ⟨.ident, [⟨.newline, [10]⟩, ⟨.comment, tx "# fmt: skip"⟩, ⟨.newline, [10]⟩], tx "b", []⟩)
      (ts .equal "=") (id (ts .ident "c")))]

/-- C39 fails with style `arrow` if a part of a chain of `=` is to be skipped: `a = b = c` becomes
`(a <- b) = c`. -/
theorem C39_skip_clash :
    skipClash.es.gram = true ∧
    readFile (seen .fresh (rawFile skipClash.es.tokens skipClash.eof)) =
      some (toRight (tk .equal "=") (tk .equal "=")) ∧
    (∃ els, Lays false .expanded 0 (fmtRoot (opts .arrow []) skipClash) els ∧
      render (emit els) = tx "a <-\n\t# fmt: skip\n\tb = c\n" ∧
      readFile (seen .fresh (emit els)) = some (toLeft (tk .assign "<-") (tk .equal "="))) := by
  refine ⟨by decide, readFile_gram (es := skipClash.es) (p := .free) (by decide) (by decide +kernel),
    ⟨_, lays_fmtRoot _ _ true _ _, by decide +kernel, ?_⟩⟩
  exact readFile_gram (es := toLeft (tk .assign "<-") (tk .equal "=")) (p := .free) (by decide)
      (by decide +kernel)

end Verif.Format
