/-!
# Specification vocabulary for line endings (independent of the model)
-/

namespace Verif.LineEnding

section Generic
variable {α : Type} [DecidableEq α]

/-- One left-to-right pass replacing each CR LF by LF. -/
def replaceCrlf (cr lf : α) : List α → List α
  | [] => []
  | [a] => [a]
  | a :: b :: rest =>
    if a = cr ∧ b = lf then lf :: replaceCrlf cr lf rest
    else a :: replaceCrlf cr lf (b :: rest)

/-- A text contains a CR LF pair. -/
def HasCrlf (cr lf : α) (x : List α) : Prop := ∃ p s, x = p ++ cr :: lf :: s

/-- Every LF of the text is directly preceded by a CR. -/
def AllCrlf (cr lf : α) (x : List α) : Prop := ∀ p s, x = p ++ lf :: s → ∃ q, p = q ++ [cr]

/-- The first line ending of the text is CR LF: the first LF is preceded by a CR. -/
def FirstIsCrlf (cr lf : α) (x : List α) : Prop := ∃ p s, lf ∉ p ∧ x = p ++ cr :: lf :: s

end Generic
end Verif.LineEnding
