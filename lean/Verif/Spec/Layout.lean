import Verif.Spec.Persistent
import Verif.Spec.Stable

/-!
# Lists on one line or on lines of their own

From the documentation (`docs/formatter.qmd`): arguments are either all on the line of the call or all on
lines of their own; the same holds for parameters and for the operands of a chain. The last argument may
contain line breaks nevertheless if it is a function or a block.
-/

namespace Verif.Format
open Verif.Syntax

/-- `out` consists of the entries and `r`, each on the line on which the one before ends. If the last entry
is left out, nothing is printed for it. -/
def Joins (o : Opts) (r : Token) : List (Arg × Option Token) → List El → Prop
  | [], out => ∃ g, (g = [] ∨ g = [.blank [32]]) ∧ out = g ++ [.tok (outTok r)]
  | (x, s) :: xs, out =>
    (x.isHole = true ∧ s = none ∧ xs = [] ∧ out = [.blank [32], .tok (outTok r)]) ∨
    ∃ a rest, Entry o x s a ∧ Joins o r xs rest ∧ out = .blank [32] :: (a ++ rest)

/-- From `l` to `r` there are no line breaks but those inside of the entries. `holes`: the separators of
the arguments that are left out at the beginning. -/
def Joined (o : Opts) (l : Token) (holes : List Token) (x : Arg) (s : Option Token)
    (xs : List (Arg × Option Token)) (r : Token) (out : List El) : Prop :=
  ∃ g a rest, (g = if holes.isEmpty then [] else [.blank [32]]) ∧
    out = [.tok (outTok l)] ++ holes.map (fun t => .tok (outTok t)) ++ g ++ a ++ rest ∧
    Entry o x s a ∧ Joins o r xs rest

/-- `out` consists of the operators and their right operands, without line breaks but those inside of the
operands. -/
def Alongside (o : Opts) : List (Token × Expr) → List El → Prop
  | [], out => out = []
  | (op, y) :: ys, out => ∃ a rest,
      out = [.blank [32], .tok (outTok op), .blank [32]] ++ a ++ rest ∧ Statement o {} y a ∧
      Alongside o ys rest

/-! ## What the printer does -/

/-- `es` is a layout of the document as `Printer` of `biome_formatter` prints it, in a group printed in mode
`m` at indentation level `i`. These are layouts in the sense of `Prints` (Verif.Lemmas.Typesets) with two
more conditions:
* a group that is printed on one line contains no line breaks (the printer expands groups that contain line
  breaks);
* all variants of a best-fitting element but the last one are printed as if in a group on one line, even if
  they contain line breaks. -/
def Typesets (m : PMode) (i : Nat) : Doc → List El → Prop
  | .nil, es => es = []
  | .cat a b, es => ∃ x y, es = x ++ y ∧ Typesets m i a x ∧ Typesets m i b y
  | .tok t, es => es = [.tok t]
  | .comment t, es => es = [.comment t]
  | .suffix l t, es => es = [.suffix l i t]
  | .space, es => es = [.space]
  | .pad, es => ∃ n, es = padEls n
  | .line l, es => es = lineEls m i l
  | .rnl, es => es = [.rnl]
  | .indent d, es => Typesets m (i + 1) d es
  | .group ex d, es => ∃ m', inGroup m ex m' ∧ (m' = .flat → es.any El.isNl = false) ∧ Typesets m' i d es
  | .ifBreaks d, es => (m = .expanded ∧ Typesets m i d es) ∨ (m ≠ .expanded ∧ es = [])
  | .noSoft d, es => Typesets .bare i d es ∧ es.all El.isInline = true ∧ d.willBreak = false
  | .alt (.group false d) b, es =>
    Typesets (if m = .bare then .bare else .flat) i d es ∨ Typesets m i b es
  | .alt a b, es => Typesets m i a es ∨ Typesets m i b es
  | .cell d, es => ∃ x, Typesets .bare 0 d x ∧ x.any El.isNl = false ∧ es = inlineSuffixes x
  | .verb x, es => es = x

/-- No line break. -/
def oneLine (out : List El) : Prop := El.rnl ∉ out

/-- A value that may contain line breaks although the arguments before it are on the line of the call: a
block with expressions that is not `{{ x }}`, or a function that does not have another block as its body.
Without expressions, comments in the block will do. -/
def Huggable : Expr → Prop
  | .braced a _ .nil _ => a.dangling ≠ []
  | .braced _ _ es _ => ∀ ia il ea t ir, es ≠ .cons (.braced ia il (.cons (.atom ea .rIdentifier t) .nil) ir) .nil
  | .func _ _ _ _ _ _ (.braced a _ .nil _) => a.dangling ≠ []
  | .func _ _ _ _ _ _ (.braced _ _ es _) =>
    ∀ ia il ea t ir, es ≠ .cons (.braced ia il (.cons (.atom ea .rIdentifier t) .nil) ir) .nil
  | .func .. => True
  | _ => False

/-- The argument, or its name, has comments (not counting those inside of its value). -/
def Arg.commented (x : Arg) : Prop :=
  x.ann.all ≠ [] ∨ match x with | .name _ na .. | .named _ na .. => na.all ≠ [] | _ => False

/-- The arguments may contain line breaks although they are on the line of the call: the last one is
huggable and has no comments, or the only one is a call. -/
def mayHug (x : Arg) (xs : List (Arg × Option Token)) : Prop :=
  (∃ y e, ((x :: xs.map Prod.fst).getLast? = some y) ∧ y.value = some e ∧ Huggable e ∧ ¬y.commented) ∨
  (xs = [] ∧ ∃ a b k f aa l items r, x = .val a (.call b k f aa l items r))

/-- The expression does not end with the operand of a unary operator that has comments. (Comments inside of a
node without a place to go to are only found in blocks and lists; see C37.) -/
def Expr.endsClean : Expr → Bool
  | .unary a _ e => a.dangling.isEmpty && !e.ann.any && e.endsClean
  | .binary a _ _ y | .sel a _ _ _ y => a.dangling.isEmpty && y.endsClean
  | .func a _ _ _ _ _ b | .ite a _ _ _ _ b | .for_ a _ _ _ _ _ _ b | .while_ a _ _ _ _ b | .repeat_ a _ b =>
    a.dangling.isEmpty && b.endsClean
  | .itee a _ _ _ _ _ ea _ e => a.dangling.isEmpty && ea.dangling.isEmpty && e.endsClean
  | .braced .. => true
  | e => e.ann.dangling.isEmpty

/-- The same for arguments. -/
def Arg.endsClean : Arg → Bool
  | .hole a => a.dangling.isEmpty
  | .val a e => a.dangling.isEmpty && e.endsClean
  | .name a na _ _ => a.dangling.isEmpty && na.dangling.isEmpty
  | .named a _ _ _ e => a.dangling.isEmpty && e.endsClean
  | .pdef a _ da _ e => a.dangling.isEmpty && da.dangling.isEmpty && e.endsClean

end Verif.Format
