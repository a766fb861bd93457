import Verif.Spec.Grammar
import Verif.Spec.Comments

/-!
# Formatting formatted files

`Prints`: the layouts from which a printer chooses. They are layouts in the sense of `Lays`
(Verif.Lemmas.Prints), with one restriction: where soft line breaks have been removed, content for
expanded groups is removed as well.

`Rereads`: a file is what is read in a printed text.
-/

namespace Verif.Format
open Verif.Syntax

/-- How the content of a group is printed: on one line, on several lines, or on one line because its
soft line breaks have been removed. -/
inductive PMode | flat | expanded | bare
  deriving DecidableEq, Repr

/-- A line break element. -/
def lineEls (m : PMode) (i : Nat) : Line → List El
  | .hard => [.nl false i]
  | .empty => [.nl true i]
  | .soft => if m = .expanded then [.nl false i] else []
  | .softOrSpace => if m = .expanded then [.nl false i] else [.space]

/-- `m'` is a mode for a group in mode `m`; `ex`: the group is marked as expanded. -/
def inGroup (m : PMode) (ex : Bool) (m' : PMode) : Prop :=
  (m = .bare → m' = .bare) ∧ (m ≠ .bare → m' ≠ .bare) ∧ (m ≠ .bare → ex = true → m' = .expanded)

/-- `es` is a layout of the document in a group printed in mode `m` at indentation level `i`. -/
def Prints (m : PMode) (i : Nat) : Doc → List El → Prop
  | .nil, es => es = []
  | .cat a b, es => ∃ x y, es = x ++ y ∧ Prints m i a x ∧ Prints m i b y
  | .tok t, es => es = [.tok t]
  | .comment t, es => es = [.comment t]
  | .suffix l t, es => es = [.suffix l i t]
  | .space, es => es = [.space]
  | .pad, es => ∃ n, es = padEls n
  | .line l, es => es = lineEls m i l
  | .rnl, es => es = [.rnl]
  | .indent d, es => Prints m (i + 1) d es
  | .group ex d, es => ∃ m', inGroup m ex m' ∧ Prints m' i d es
  | .ifBreaks d, es => (m = .expanded ∧ Prints m i d es) ∨ (m ≠ .expanded ∧ es = [])
  | .noSoft d, es => Prints .bare i d es ∧ es.all El.isInline = true ∧ d.willBreak = false
  | .alt a b, es => Prints m i a es ∨ Prints m i b es
  | .cell d, es => ∃ x, Prints .bare 0 d x ∧ x.any El.isNl = false ∧ es = inlineSuffixes x
  | .verb x, es => es = x

/-- The tokens of a printed text, each with the number of line breaks in front of it. -/
def lineFeeds (n : Nat) : List El → List (Nat × Tok)
  | [] => []
  | .tok t :: es => (n, t) :: lineFeeds 0 es
  | .rnl :: es => lineFeeds (n + 1) es
  | _ :: es => lineFeeds n es

/-- `y` is what R reads in the printed text `out`, which has no comments: it has the tokens of the text,
each with the line breaks in front of it (line ends in strings may differ), and is what R's grammar makes of
them. -/
structure Rereads (out : List El) (y : Root) : Prop where
  comments : y.sourceComments = []
  tokens : y.es.tokens.map (fun t => (linesBeforeToken t, outTok t)) = lineFeeds 0 out
  gram : y.es.gram = true
  fits : Fits (shapes .top .free y.es) (seen .fresh out)

/-- A printer: it chooses one of the layouts of a document. -/
def Chooses (pick : Doc → List El) : Prop :=
  ∀ d, (∃ x, Prints .expanded 0 d x) → Prints .expanded 0 d (pick d)

/-- The choice does not depend on layouts that are not chosen: if some of the other layouts are not
available, the choice stays the same. -/
def Consistent (pick : Doc → List El) : Prop :=
  ∀ d d', (∀ x, Prints .expanded 0 d' x → Prints .expanded 0 d x) → Prints .expanded 0 d' (pick d) →
    pick d' = pick d

end Verif.Format
