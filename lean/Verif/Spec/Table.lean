import Verif.Model.Table
import Verif.Spec.Lines

/-!
# What a well laid out table is

All positions are counted in characters, indentation as one character per level.
-/

namespace Verif.Format
open Verif.Syntax

/-- The text of a cell, from its tokens. -/
def Cell.text (c : Cell) : List Byte := (printedToks c.body).flatMap Tok.text

/-- Is the cell a number? -/
def Cell.isNumber (c : Cell) : Bool :=
  match c.kind with
  | .numeric .. => true
  | .other _ => false

/-- A number is divided before its decimal point, or before the suffix of an integer, or at its end. -/
def Point (p q : List Byte) : Prop :=
  (q = [] ∧ 46 ∉ p) ∨ q = [76] ∨ (q.head? = some 46 ∧ 46 ∉ p)

/-- Blanks. -/
def AllBlank (bs : List Byte) : Prop := ∀ b ∈ bs, b = 32 ∨ b = 9

/-- `out` is the cells of a row from column `j` on, all on one line. Between the separator after column
`j` and the separator before it (or the beginning of the line) there are `f j` characters, and numbers
have their decimal point `g j` characters after the separator before. Nothing is asked of `f` for the
last argument of the call. -/
def RowPrinted (f g : Nat → Nat) : Nat → List Cell → List El → Prop
  | _, [], out => out = []
  | j, c :: cs, out => ∃ seg rest,
      out = seg ++ (c.sep.toList.map El.tok) ++ rest ∧
      printedToks seg = printedToks c.body ∧ seg.all El.isInline = true ∧
      (c.last = false → chars (render seg) = f j) ∧
      (c.isNumber = true → ∃ a p q b, render seg = a ++ p ++ q ++ b ∧ c.text = p ++ q ∧ Point p q ∧
        AllBlank a ∧ AllBlank b ∧ a.length + p.length = g j) ∧
      RowPrinted f g (j + 1) cs rest

/-- Is there an empty line before the row in the source? -/
def emptyBefore : List (List Cell) → Nat
  | (c :: _) :: _ => if 1 < c.lines then 1 else 0
  | _ => 0

/-- No comments in a cell. -/
def Cell.bare (c : Cell) : Bool := c.body.all El.isInline

/-- `out` is the rows, each on a line of its own; there is an empty line between two rows where the
source has one. There may be comments before a row, on lines of their own, and after it. -/
def TablePrinted (f g : Nat → Nat) : List (List Cell) → List El → Prop
  | [], out => out = []
  | r :: rs, out => ∃ pre line rest,
      out = pre ++ line ++ rest ∧ RowPrinted f g 0 r line ∧
      printedToks pre = [] ∧ (pre = [] ∨ pre.getLast? = some .rnl) ∧
      (r.all Cell.bare = true → pre = []) ∧
      (rs = [] ∧ rest = [] ∨ ∃ cm out',
        rest = cm ++ List.replicate (1 + emptyBefore rs) .rnl ++ out' ∧ printedToks cm = [] ∧
        (r.all Cell.bare = true → cm = []) ∧ TablePrinted f g rs out')

/-! ## Cells -/

/-- Comments on lines of their own. -/
inductive Lead (i : Nat) : List El → Prop
  | nil : Lead i []
  | cons (t : List Byte) (e : Bool) {x : List El} : Lead i x → Lead i (.comment t :: .nl e i :: x)

/-- Text on one line, from a token to a token, or nothing. -/
def OneLine (x : List El) : Prop :=
  x.all El.isInline = true ∧
  (x = [] ∨ ((∃ t r, x = .tok t :: r) ∧ (∃ t r, x = r ++ [.tok t])))

/-- The width is that of the text. -/
def KindOk (core : List El) : ArgKind → Prop
  | .numeric i f => core ≠ [] ∧ (∀ e ∈ core, ∃ t, e = .tok t) ∧ (∀ b ∈ render core, b < 128) ∧
      ∃ p q, render core = p ++ q ∧ Point p q ∧ p.length = i ∧ q.length = (f.elim 0 (· + 1))
  | .other t => t = render (emit core)

/-- A cell whose comments do not get in the way: comments before it are at the beginning of a row and
not before a number. -/
def NeatCell (i : Nat) (head : Bool) (c : Cell) : Prop :=
  ∃ lead core trail, c.body = lead ++ core ++ trail ∧
    Lead i lead ∧ (lead ≠ [] → head = true ∧ c.isNumber = false) ∧
    (∀ e ∈ trail, ∃ l k t, e = .suffix l k t) ∧
    OneLine core ∧ (core ≠ [] → 0 < c.kind.width) ∧ KindOk core c.kind

/-- All cells of a row are neat. -/
def NeatRow (i : Nat) : List Cell → Prop
  | [] => True
  | c :: cs => NeatCell i true c ∧ ∀ c ∈ cs, NeatCell i false c

end Verif.Format
