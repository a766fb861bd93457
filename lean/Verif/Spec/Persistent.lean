import Verif.Spec.Lines
import Verif.Spec.Grammar

/-!
# Persistent line breaks

From the documentation (`docs/formatter.qmd`, "Persistent line breaks"): a line break before the first
argument of a call, or before the first right-hand side of a chain of operators, is never removed, and
then all arguments or operands are on lines of their own.
-/

namespace Verif.Format
open Verif.Syntax

/-- A line break, with only blanks and line breaks before it, in front of the tokens. -/
def lineBreakBefore : List Token → Bool
  | [] => false
  | t :: _ => (t.leading.takeWhile (fun p => p.kind != .comment)).any (fun p => p.kind == .newline)

/-! ## Arguments and parameters -/

/-- Entries of a list with the separators behind them. -/
def Items.entries : Items → List (Arg × Option Token)
  | .nil => []
  | .last x => [(x, none)]
  | .cons x s xs => (x, some s) :: xs.entries

/-- `out` starts and ends with a token or a comment, and its tokens are those of the entry after
formatting. -/
def Entry (o : Opts) (x : Arg) (s : Option Token) (out : List El) : Prop :=
  (∃ a r, out = a :: r ∧ a.isText = true) ∧ (∃ r a, out = r ++ [a] ∧ a.isText = true) ∧
  ∃ x', BecomesArg o x x' ∧ printedToks out = (x'.tokens ++ s.toList).map outTok

/-- `out` consists of the entries, each on a new line indented by `i`, after a blank line if there are one
or more in the source. If the last entry is left out, nothing is printed for it. -/
def Entries (o : Opts) (i : Nat) : List (Arg × Option Token) → List El → Prop
  | [], out => out = []
  | (x, s) :: xs, out =>
    (x.isHole = true ∧ s = none ∧ xs = [] ∧ out = []) ∨
    ∃ a rest, Entry o x s a ∧ Entries o i xs rest ∧
      out = List.replicate (1 + min (blankLines x.tokens) 1) .rnl ++ indentation i ++ a ++ rest

/-- Between `l` and `r` there are, on the line of `l`, the separators of the arguments that are left out
at the beginning (`holes`), possibly comments, then the entries on lines of their own, one level deeper
than the line of `r`. -/
def BrokenOut (o : Opts) (l : Token) (holes : List Token) (x : Arg) (s : Option Token)
    (xs : List (Arg × Option Token)) (r : Token) (out : List El) : Prop :=
  ∃ cs i a rest,
    out = [.tok (outTok l)] ++ holes.map (fun t => .tok (outTok t)) ++ cs ++ [.rnl] ++
      indentation (i + 1) ++ a ++ rest ++ [.rnl] ++ indentation i ++ [.tok (outTok r)] ∧
    printedToks cs = [] ∧ Entry o x s a ∧ Entries o (i + 1) xs rest

/-- A string and a block: `test_that("title", { … })`. -/
def Titled (items : Items) : Prop :=
  ∃ x y a op c cl b l es r, items.args = [x, y] ∧ x.value = some (.str a op c cl) ∧
    y.value = some (.braced b l es r)

/-- When the arguments of a call have to be on lines of their own: there is a line break in front of the
first argument or of the separator of an omitted argument before it (unless persistent line breaks are
switched off), or a blank line in front of one of them. -/
def mustBreak (o : Opts) (holes : List Token) (args : List Arg) : Prop :=
  (o.persistent = true ∧ (lineBreakBefore ((args.head?.map Arg.tokens).getD []) = true ∨
    ∃ t ∈ holes, lineBreakBefore [t] = true)) ∨
  (∃ x ∈ args, 0 < blankLines x.tokens) ∨ ∃ t ∈ holes, 0 < blankLines [t]

/-! ## Chains of operators -/

/-- Operators that form chains: pipes, `%op%`, logical and arithmetic operators. -/
def chains : Kind → Bool
  | .pipe | .special | .orOp | .or2 | .andOp | .and2 | .plus | .minus | .multiply | .divide => true
  | _ => false

/-- First operand of a chain. -/
def Expr.chainHead : Expr → Expr
  | .binary a x op y => if chains op.kind then x.chainHead else .binary a x op y
  | e => e

/-- Operators of a chain with their right operands. -/
def Expr.chainTail : Expr → List (Token × Expr)
  | .binary _ x op y => if chains op.kind then x.chainTail ++ [(op, y)] else []
  | _ => []

/-- `out` consists of the operators at the end of lines, each followed by its operand on a new line
indented by `i`, after a blank line if there are one or more in the source. -/
def Operands (o : Opts) (i : Nat) : List (Token × Expr) → List El → Prop
  | [], out => out = []
  | (op, y) :: ys, out => ∃ w cs a rest,
      out = w ++ [.tok (outTok op)] ++ cs ++ List.replicate (1 + min (blankLines y.tokens) 1) .rnl ++
        indentation i ++ a ++ rest ∧
      (∀ e ∈ w, e.isText = false) ∧ printedToks cs = [] ∧ Statement o {} y a ∧ Operands o i ys rest

/-! ## Assignments -/

/-- Operators after which a line break is kept. -/
def keepsBreak : Kind → Bool
  | .equal | .assign | .superAssign | .tilde => true
  | _ => false

end Verif.Format
