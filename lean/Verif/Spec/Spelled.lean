import Verif.Spec.Lexer
import Verif.Model.FormatRules

/-!
# Trees that belong to their text

What tree-sitter-r guarantees about the tokens and trivia of a file, as far as it concerns the text.
-/

namespace Verif.Format
open Verif.Syntax

/-- White space is white space or `;`, a comment starts with `#` and ends with the line. -/
def Piece.spelled (p : Piece) : Bool :=
  match p.kind with
  | .newline => true
  | .whitespace => p.text.all (fun b => isBlank b || b == 59)
  | .comment => p.text.head? == some 35 && !p.text.contains 10

/-- Nothing comes between the quotes and the content of a string. -/
def wholeStrings : List Token → Bool
  | [] => true
  | t :: ts =>
    (!(t.kind == .stringOpen || t.kind == .stringContent) ||
      t.trailing.isEmpty && (match ts with | u :: _ => u.leading.isEmpty | [] => false)) &&
    wholeStrings ts

/-- The text of the file. -/
def Root.text (x : Root) : List Byte := render (rawFile x.es.tokens x.eof)

/-- The tokens and trivia of the file are what R finds in its text. -/
structure Root.Spelled (x : Root) : Prop where
  trivia : ∀ p ∈ x.es.tokens.flatMap (fun t => t.leading ++ t.trailing) ++ x.eof.leading, Piece.spelled p = true
  strings : wholeStrings x.es.tokens = true
  lexed : lexText x.text = some (seen .fresh (rawFile x.es.tokens x.eof))

/-- The same elements, with blanks spelled differently (indentation by tabs or by any number of
spaces). -/
inductive Respelled : List El → List El → Prop
  | nil : Respelled [] []
  | same (e : El) {x y : List El} : Respelled x y → Respelled (e :: x) (e :: y)
  | blank {a b : List Byte} {x y : List El} : a ≠ [] → b ≠ [] → a.all isBlank = true → b.all isBlank = true →
      Respelled x y → Respelled (.blank a :: x) (.blank b :: y)

end Verif.Format
