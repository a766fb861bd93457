import Verif.Model.RangeFormat

/-!
# What range formatting should choose
-/

namespace Verif.RangeFormat

open Syntax

/-- `Occ t s p s' t'`: the tree `t` at position `s` has the subtree `t'` at path `p` and position
`s'`. -/
inductive Occ : Tree → Nat → Path → Nat → Tree → Prop
  | here (t : Tree) (s : Nat) : Occ t s [] s t
  | child {c : Tree} {s s' : Nat} {p : Path} {t' : Tree} (k : Kind) (l r : List Tree)
      (h : Occ c (s + lens l) p s' t') : Occ (.node k (l ++ c :: r)) s (l.length :: p) s' t'

/-- The node at path `p` is an expression list, the start of the selection lies in one of its
expressions or the trivia before or after it, and the end of the selection lies in or at the end of
one of its expressions. -/
def Encloses (root : Tree) (start stop : Nat) (p : Path) : Prop :=
  ∃ s cs, Occ root 0 p s (.node .rExpressionList cs) ∧
    (∃ l c r, cs = l ++ c :: r ∧ s + lens l ≤ start ∧ start < s + lens l + len c) ∧
    ∃ l c r, cs = l ++ c :: r ∧ s + lens l + lead c ≤ stop ∧ stop ≤ s + lens l + len c - trail c

/-- Text of a token or node without the trivia around it. -/
def trimmedLen (t : Tree) : Nat := len t - lead t - trail t

/-- Where expression lists may stand: as the only node of the root, before the token for the end of
the file, or between two delimiters. -/
def ListPlaces (top : Bool) (cs : List Tree) : Prop :=
  (∀ k xs, .node k xs ∈ cs → k ≠ .rExpressionList) ∨
    (top = true ∧ ∃ xs t, cs = [.node .rExpressionList xs, .token t]) ∨
    ∃ a xs b, cs = [.token a, .node .rExpressionList xs, .token b] ∧ b.text ≠ []

/-- The expressions of a list: nodes with text, and something (a line end or semicolon) between any
two. -/
def ListItems (cs : List Tree) : Prop :=
  (∀ c ∈ cs, (∃ k ds, c = .node k ds) ∧ c.tokens ≠ [] ∧ 0 < trimmedLen c) ∧
    ∀ l x y r, cs = l ++ x :: y :: r → 0 < trail x + lead y

mutual
/-- Trees in which expression lists are as above; `top` for the root. -/
def Lists (top : Bool) : Tree → Prop
  | .token _ => True
  | .node k cs => ListPlaces top cs ∧ (k = .rExpressionList → ListItems cs) ∧ ListsAll cs
def ListsAll : List Tree → Prop
  | [] => True
  | t :: ts => Lists false t ∧ ListsAll ts
end

/-- `B1` and `B2` are all of the blank trivia (white space, line ends, semicolons) before and after
the sequence of tokens, up to the outermost comments. -/
def BlankAround (toks : List Token) (B1 B2 : List Piece) : Prop :=
  (∃ k rest, toks.head? = some k ∧ k.leading = B1 ++ rest ∧ ∀ x ∈ rest.head?, x.kind = .comment) ∧
    (∃ k rest, toks.getLast? = some k ∧ k.trailing = rest ++ B2 ∧
      ∀ x ∈ rest.getLast?, x.kind = .comment) ∧
    ∀ x ∈ B1 ++ B2, x.kind ≠ .comment

end Verif.RangeFormat
