import Verif.Model.LineIndex

/-!
# Specification of editor positions
-/

namespace Verif.LineIndex

/-- Number of code units of a character in an encoding. -/
def units : Encoding → Char → Nat
  | .utf8, c => c.utf8Size
  | .utf16, c => if c.toNat < 0x10000 then 1 else 2  -- characters outside of the BMP are surrogate pairs
  | .utf32, _ => 1

/-- Move a position over one character: a line feed starts the next line, everything else advances
the column by its number of code units. -/
def advance (enc : Encoding) (p : Pos) (c : Char) : Pos :=
  if c = '\n' then { line := p.line + 1, character := 0 }
  else { line := p.line, character := p.character + units enc c }

/-- The position at the end of the text `a`: that is, the position of the cursor when `a` is the
part of the document in front of it. -/
def posOf (enc : Encoding) (a : List Char) : Pos := a.foldl (advance enc) { line := 0, character := 0 }

/-- Document order of positions. -/
def Pos.lt (p q : Pos) : Prop := p.line < q.line ∨ (p.line = q.line ∧ p.character < q.character)

end Verif.LineIndex
