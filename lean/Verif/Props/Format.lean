import Verif.Lemmas.FormatRoot
import Verif.Lemmas.FormatBecomes

/-!
# C36, C38: formatted files have the tokens of the source and are read as the same program
-/

namespace Verif.Format
open Verif.Syntax

/-! ## Examples: writing programs -/

namespace Ex

/-- ASCII text. -/
def tx (s : String) : List Byte := s.toList.map (fun c => UInt8.ofNat c.toNat)

/-- A token, a token after a space, a token on a new line. -/
def tk (k : Kind) (s : String) : Token := ⟨k, [], tx s, []⟩
def ts (k : Kind) (s : String) : Token := ⟨k, [⟨.whitespace, [32]⟩], tx s, []⟩
def tn (k : Kind) (s : String) : Token := ⟨k, [⟨.newline, [10]⟩], tx s, []⟩

/-- An identifier. -/
def id (t : Token) : Expr := .atom {} .rIdentifier t

/-- Some expressions. -/
def list : List Expr → Exprs
  | [] => .nil
  | e :: es => .cons e (list es)

/-- A file ending with a line break. -/
def file (es : List Expr) : Root := ⟨{}, list es, ⟨.eof, [⟨.newline, [10]⟩], [], []⟩⟩

/-- The options of a default configuration with the given functions to skip. -/
def opts (style : Settings.AssignmentStyle) (skip : List (List Byte)) : Opts where
  style := style
  persistent := true
  skip := fun n => skip.contains n
  table := fun n => [tx "tribble"].contains n
  directive := fun t => Directive.parseCommentDirective (t.map (fun b => Char.ofNat b.toNat))
  generated := fun t =>
    (Directive.parseSpecialSkipFile (t.map (fun b => Char.ofNat b.toNat))).isSome

/-- `if (a) b else c` and, on the next line, `x = 1`. -/
def prog : Root := file
  [.itee {} (tk .ifKw "if") (ts .lParen "(") (id (tk .ident "a")) (tk .rParen ")")
     (id (ts .ident "b")) {} (ts .elseKw "else") (id (ts .ident "c")),
   .binary {} (id (tn .ident "x")) (ts .equal "=") (.atom {} .rDoubleValue (ts .rDoubleLiteral "1"))]

/-- The formatted text if groups are printed flat (`wide`) or expanded. -/
def text (o : Opts) (x : Root) (wide first : Bool) : List Byte :=
  render (emit (lay wide first false .expanded 0 (fmtRoot o x)))

/-- A comment at the end of a line and the trivia it stands for. -/
def cm : Comment := ⟨tx "# c", 0, 1, false⟩
def eol : List Piece := [⟨.whitespace, [32]⟩, ⟨.comment, tx "# c"⟩]

/-- A number. -/
def num (t : Token) : Expr := .atom {} .rDoubleValue t

end Ex

open Ex

/-! ## C36 -/

theorem rewriting (o : Opts) (x : Root) (m : Mode) (els : List El)
    (h : Lays false m 0 (fmtRoot o x) els) :
    ∃ es', (Rews o {} true x.es es' ∨ rootSuppressed o x.es = true ∧ es' = x.es) ∧
      printedToks (emit els) = es'.tokens.map outTok := by
  rw [printedToks_emit]
  cases hs : rootSuppressed o x.es with
  | true =>
    refine ⟨x.es, .inr ⟨rfl, rfl⟩, ?_⟩
    unfold fmtRoot at h
    rw [if_pos hs] at h
    cases h
    exact printedToks_rawFile _ _
  | false =>
    obtain ⟨es', hR, hr⟩ := reads_root hs (tames_weak o .top {} true x.es) h
    exact ⟨es', .inl hR, by rw [hr.2, shapes_toks]⟩

/-- C36: for every layout the tokens in the formatted text are those of a program that differs from
the source by braces around bodies and by assignment operators only. -/
theorem C36_rewriting (o : Opts) (x : Root) (m : Mode) (els : List El)
    (h : Lays false m 0 (fmtRoot o x) els) :
    ∃ es', (Becomess o true x.es es' ∨ rootSuppressed o x.es = true ∧ es' = x.es) ∧
      printedToks (emit els) = es'.tokens.map outTok := by
  obtain ⟨es', hR, ht⟩ := rewriting o x m els h
  exact ⟨es', hR.imp_left (rews_becomes o _ _ _ _), ht⟩

/-- C36: the sequence of tokens of the formatted text is the one of the source with braces put around
contiguous parts and assignment operators replaced in the direction of the style. -/
theorem C36_tokens (o : Opts) (x : Root) (m : Mode) (els : List El)
    (h : Lays false m 0 (fmtRoot o x) els) :
    Edits o.style (x.es.tokens.map outTok) (printedToks (emit els)) := by
  obtain ⟨es', hR | ⟨-, rfl⟩, ht⟩ := rewriting o x m els h
  · rw [ht]
    exact rews_edits o _ _ _ _ hR
  · rw [ht]
    exact .refl _

/-- C36: without braces and with `=` and `<-` identified the tokens are the same. -/
theorem C36_up_to_braces (o : Opts) (x : Root) (m : Mode) (els : List El)
    (h : Lays false m 0 (fmtRoot o x) els) :
    ((printedToks (emit els)).filter (fun t => !isBrace t)).map sameOp =
      ((x.es.tokens.map outTok).filter (fun t => !isBrace t)).map sameOp :=
  (edits_erase (C36_tokens o x m els h)).symm

/-- C36: if assignment operators are to be preserved no token is lost or changed. -/
theorem C36_preserve (o : Opts) (x : Root) (m : Mode) (els : List El)
    (h : Lays false m 0 (fmtRoot o x) els) (hs : o.style = .preserve) :
    (x.es.tokens.map outTok).Sublist (printedToks (emit els)) :=
  edits_sublist (C36_tokens o x m els h) hs

/-- Every file has a layout, so the statements are not vacuous. -/
theorem C36_layout_exists (o : Opts) (x : Root) (m : Mode) :
    ∃ els, Lays false m 0 (fmtRoot o x) els := ⟨_, lays_fmtRoot o x true m 0⟩

example : text (opts .arrow []) prog true false =
    tx "if (a) {\n\tb\n} else {\n\tc\n}\nx <- 1\n" := by decide +kernel

/-! ## C38 -/

/-- C38, for files in which comments are not at the few places that `Tames` excludes: an R parser
reads the formatted text as a program that differs from the source by braces around bodies and by
assignment operators only. `Fits` contains all of R's rules about line breaks, `seen` all tokens that
are not in comments. -/
theorem C38_reads_partial (o : Opts) (x : Root) (m : Mode) (els : List El)
    (hs : rootSuppressed o x.es = false) (hT : Tames true o .top {} true x.es)
    (h : Lays false m 0 (fmtRoot o x) els) :
    ∃ es', Becomess o true x.es es' ∧
      Fits (shapes .top .free es') (seen .fresh (emit els)) := by
  obtain ⟨es', hR, hr⟩ := reads_root hs hT h
  refine ⟨es', rews_becomes o _ _ _ _ hR, ?_⟩
  rw [seen_emit]
  exact (hr.1 rfl .fresh (Fr.nc rfl)).1

/-- C38 with a simple condition on comments, for files without skip and table directives and without
calls of functions that the settings list as such. -/
theorem C38_reads_calm_partial (o : Opts) (x : Root) (m : Mode) (els : List El)
    (hs : rootSuppressed o x.es = false) (hc : x.es.calm = true) (ho : x.es.ordinary o = true)
    (h : Lays false m 0 (fmtRoot o x) els) :
    ∃ es', Becomess o true x.es es' ∧
      Fits (shapes .top .free es') (seen .fresh (emit els)) :=
  C38_reads_partial o x m els hs (tames_calm _ _ _ _ hc ho) h

/-- C37, same condition: no token of the formatted text ends up in a comment. -/
theorem C37_no_token_in_comment_partial (o : Opts) (x : Root) (m : Mode) (els : List El)
    (hs : rootSuppressed o x.es = false) (hT : Tames true o .top {} true x.es)
    (h : Lays false m 0 (fmtRoot o x) els) :
    (seen .fresh (emit els)).map Prod.snd = printedToks (emit els) := by
  obtain ⟨es', _, hr⟩ := reads_root hs hT h
  rw [seen_emit, printedToks_emit, fits_toks (hr.1 rfl .fresh (Fr.nc rfl)).1, hr.2]

example : prog.es.calm = true := by decide
example : rootSuppressed (opts .arrow []) prog.es = false := by decide
example : prog.es.ordinary (opts .arrow [tx "f"]) = true := by decide
example : Fits (shapes .top .free prog.es) (seen .fresh (rawFile prog.es.tokens prog.eof)) := by
  decide +kernel

/-! ## The conditions of C38 are needed

Each of the following programs is read from its source as the given tree, and is formatted to a text
that is read as a different program. The layouts are those the printer chooses for short lines: a group
is expanded exactly if something in it forces a line break. -/

/-- `+ # c`, `1 + 2`: the line break after the argument of the unary operator ends the expression.
-/
def Ex.unaryComment : Root := file
  [.binary {} (.unary {} ⟨.plus, [], [43], eol⟩
      (.atom { leading := [cm] } .rDoubleValue (tn .rDoubleLiteral "1")))
    (ts .plus "+") (num (ts .rDoubleLiteral "2"))]

/-- C38 fails for a commented argument of a unary operator on the left of another operator: one
expression becomes two. -/
theorem C38_unary_comment_splits :
    Fits (shapes .top .free unaryComment.es)
      (seen .fresh (rawFile unaryComment.es.tokens unaryComment.eof)) ∧
    ∃ els, Lays false .expanded 0 (fmtRoot (opts .preserve []) unaryComment) els ∧
      render (emit els) = tx "+\n\t# c\n\t1\n+\n\t2\n" ∧
      ¬ Fits (shapes .top .free unaryComment.es) (seen .fresh (emit els)) ∧
      Fits (shapes .top .free (list [.unary {} (tk .plus "+") (num (tk .rDoubleLiteral "1")),
        .unary {} (tk .plus "+") (num (tk .rDoubleLiteral "2"))])) (seen .fresh (emit els)) :=
  ⟨by decide +kernel, _, lays_fmtRoot _ _ true _ _, by decide +kernel, by decide +kernel,
    by decide +kernel⟩

/-- `(function(x) f`, `# c`, `(y))`. -/
def Ex.calleeComment : Root := file
  [.paren {} (tk .lParen "(")
    (.func {} (tk .functionKw "function") {} (tk .lParen "(") (.last (.val {} (id (tk .ident "x"))))
      (tk .rParen ")")
      (.call {} .call (id (ts .ident "f")) { leading := [⟨tx "# c", 1, 1, false⟩] }
        ⟨.lParen, [⟨.newline, [10]⟩, ⟨.comment, tx "# c"⟩, ⟨.newline, [10]⟩], [40], []⟩
        (.last (.val {} (id (tk .ident "y")))) (tk .rParen ")")))
    (tk .rParen ")")]

/-- C38 fails for a comment between a callee and its arguments in the body of a function that is
inside parentheses and gets braces: the call falls apart. -/
theorem C38_callee_comment_splits :
    Fits (shapes .top .free calleeComment.es)
      (seen .fresh (rawFile calleeComment.es.tokens calleeComment.eof)) ∧
    ∃ els, Lays false .expanded 0 (fmtRoot (opts .preserve []) calleeComment) els ∧
      render (emit els) = tx "(function(x) {\n\tf# c\n\t(y)\n})\n" ∧
      Fits (shapes .top .free (list [.paren {} (tk .lParen "(")
        (.func {} (tk .functionKw "function") {} (tk .lParen "(")
          (.last (.val {} (id (tk .ident "x")))) (tk .rParen ")")
          (.braced {} (tk .lCurly "{") (list [id (tk .ident "f"),
            .paren {} (tk .lParen "(") (id (tk .ident "y")) (tk .rParen ")")]) (tk .rCurly "}")))
        (tk .rParen ")")])) (seen .fresh (emit els)) :=
  ⟨by decide +kernel, _, lays_fmtRoot _ _ true _ _, by decide +kernel, by decide +kernel⟩

/-- `(function(x)`, `f`, `(y))` where `f` is listed in `skip`. -/
def Ex.skippedCall : Root := file
  [.paren {} (tk .lParen "(")
    (.func {} (tk .functionKw "function") {} (tk .lParen "(") (.last (.val {} (id (tk .ident "x"))))
      (tk .rParen ")")
      (.call {} .call (id (tn .ident "f")) {} (tn .lParen "(")
        (.last (.val {} (id (tk .ident "y")))) (tk .rParen ")")))
    (tk .rParen ")")]

/-- C38 fails for a skipped call with a line break in the body of a function that is inside
parentheses and gets braces. -/
theorem C38_skipped_call_splits :
    Fits (shapes .top .free skippedCall.es)
      (seen .fresh (rawFile skippedCall.es.tokens skippedCall.eof)) ∧
    ∃ els, Lays false .expanded 0 (fmtRoot (opts .preserve [tx "f"]) skippedCall) els ∧
      render (emit els) = tx "(function(x) {\n\tf\n(y)\n})\n" ∧
      Fits (shapes .top .free (list [.paren {} (tk .lParen "(")
        (.func {} (tk .functionKw "function") {} (tk .lParen "(")
          (.last (.val {} (id (tk .ident "x")))) (tk .rParen ")")
          (.braced {} (tk .lCurly "{") (list [id (tk .ident "f"),
            .paren {} (tk .lParen "(") (id (tk .ident "y")) (tk .rParen ")")]) (tk .rCurly "}")))
        (tk .rParen ")")])) (seen .fresh (emit els)) :=
  ⟨by decide +kernel, _, lays_fmtRoot _ _ true _ _, by decide +kernel, by decide +kernel⟩

/-- `tribble(f(a # c`, `), b)`. -/
def Ex.tableComment : Root := file
  [.call {} .call (id (tk .ident "tribble")) {} (tk .lParen "(")
    (.cons
      (.val {} (.call {} .call (id (tk .ident "f")) {} (tk .lParen "(")
        (.last (.val { trailing := [cm] } (id ⟨.ident, [], tx "a", eol⟩))) (tn .rParen ")")))
      (tk .comma ",")
      (.last (.val {} (id (ts .ident "b")))))
    (tk .rParen ")")]

/-- C37 and C38 fail for a comment inside a cell of a table: it is moved to the end of the cell, where
it swallows the separator and all other cells of the row. -/
theorem C37_table_comment_swallows :
    Fits (shapes .top .free tableComment.es)
      (seen .fresh (rawFile tableComment.es.tokens tableComment.eof)) ∧
    ∃ els, Lays false .expanded 0 (fmtRoot (opts .preserve []) tableComment) els ∧
      render (emit els) = tx "tribble(\n\tf(a) # c , b\n)\n" ∧
      (seen .fresh (emit els)).map (fun p => p.2.text) =
        [tx "tribble", tx "(", tx "f", tx "(", tx "a", tx ")", tx ")"] :=
  ⟨by decide +kernel, lay true true false .expanded 0 (fmtRoot (opts .preserve []) tableComment),
    lay_lays _ _ _ _ _ _ (by decide +kernel), by decide +kernel, by decide +kernel⟩

end Verif.Format
