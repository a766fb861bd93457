import Verif.Model.TextEdit

/-!
# Specification of text edits: one left-to-right pass over the old text

`Edits p is old new`: `old` is the part of the document starting at byte offset `p`; `is` is a
sorted list of disjoint replacements, all inside `old` and on character boundaries; `new` is the
text obtained by copying the stretches between the ranges and writing each replacement in the place
of its range.
-/

namespace Verif.TextEdit
open Verif.Text

inductive Edits : Nat → List Indel → List Char → List Char → Prop
  | done (p rest) : Edits p [] rest rest
  | step {p keep del rest new} {i : Indel} {is : List Indel}
      (hstart : i.delete.start = p + size keep)
      (hstop : i.delete.stop = p + size keep + size del)
      (h : Edits (p + size keep + size del) is rest new) :
      Edits p (i :: is) (keep ++ del ++ rest) (keep ++ i.insert ++ new)

/-- Ranges sorted and disjoint (touching and equal empty ranges allowed). -/
def Sorted (is : List Indel) : Prop := is.Pairwise fun a b => a.delete.stop ≤ b.delete.start

/-- Offset `n` lies on a character boundary of `t` (in bounds). -/
def Boundary (t : List Char) (n : Nat) : Prop := ∃ a b, t = a ++ b ∧ size a = n

/-- The texts denoted by a list of diff chunks. -/
def Chunk.leftText : Chunk → List Char
  | .equal t => t
  | .delete t => t
  | .insert _ => []
def Chunk.rightText : Chunk → List Char
  | .equal t => t
  | .delete _ => []
  | .insert t => t

end Verif.TextEdit
