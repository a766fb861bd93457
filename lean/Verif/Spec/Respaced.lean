import Verif.Model.Placement
import Verif.Spec.Source
import Verif.Spec.Grammar
import Verif.Spec.Lexer

/-!
# Files that differ in white space only
-/

namespace Verif.Format
open Verif.Syntax

/-- Trivia without blanks and with no more than three line breaks in a row (two empty lines); `n`: the line
breaks before. -/
def thin (n : Nat) : List Piece → List Piece
  | [] => []
  | p :: ps =>
    match p.kind with
    | .whitespace => thin n ps
    | .newline => if n < 3 then ⟨.newline, [10]⟩ :: thin (n + 1) ps else thin n ps
    | .comment => p :: thin 0 ps

/-- The token with such trivia around it. -/
def Token.thin (t : Token) : Token :=
  { t with leading := Format.thin 0 t.leading, trailing := Format.thin 0 t.trailing }

/-- The files consist of the same program, with the same comments and line breaks at the same places, up to the
number of empty lines where there are two or more. -/
structure Respaced (x y : Root) : Prop where
  program : x.es.bare = y.es.bare
  trivia : x.es.tokens.map Token.thin = y.es.tokens.map Token.thin
  last : Token.thin x.eof = Token.thin y.eof

/-! ## The same for texts -/

/-- What a text consists of besides blanks: tokens, comments, line breaks and semicolons. -/
inductive Mark
  | tok (t : Tok)
  | comment (text : List Byte)
  | brk
  | semi
  deriving DecidableEq, Repr

/-- The parts of a text in the way R reads it; `st`: open tokens, the number bounds the depth of the recursion. -/
def skimFrom : Nat → List Tok → List Byte → Option (List Mark)
  | 0, _, _ => none
  | n + 1, st, bs =>
    if (openString st).isSome then
      match nextTok st bs with
      | none => none
      | some (t, rest) => (skimFrom n (openAfter st t) rest).map (.tok t :: ·)
    else
      match bs with
      | [] => some []
      | b :: bs =>
        if b = 10 then (skimFrom n st bs).map (.brk :: ·)
        else if b = 59 then (skimFrom n st bs).map (.semi :: ·)
        else if isBlank b then skimFrom n st bs
        else if b = 35 then
          (skimFrom n st (bs.dropWhile (fun c => c != 10))).map
            (.comment (b :: bs.takeWhile (fun c => c != 10)) :: ·)
        else
          match nextTok st (b :: bs) with
          | none => none
          | some (t, rest) => (skimFrom n (openAfter st t) rest).map (.tok t :: ·)

/-- The parts of a file. -/
def skim (bs : List Byte) : Option (List Mark) := skimFrom (bs.length + 1) [] bs

/-- No more than three line breaks in a row; `n`: the line breaks before. -/
def few (n : Nat) : List Mark → List Mark
  | [] => []
  | .brk :: ms => if n < 3 then .brk :: few (n + 1) ms else few n ms
  | .semi :: ms => .semi :: few n ms
  | .comment t :: ms => .comment t :: few 0 ms
  | .tok t :: ms => .tok t :: few 0 ms

/-- The texts differ in blanks only, and in the number of empty lines where there are two or more. -/
def SameMarks (a b : List Byte) : Prop := (skim a).map (few 0) = (skim b).map (few 0)

end Verif.Format
