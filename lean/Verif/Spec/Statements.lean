import Verif.Spec.Comments
import Verif.Spec.Tokens
import Verif.Spec.Lines
import Verif.Model.FormatRules

/-!
# Statements and the comments around them
-/

namespace Verif.Format
open Verif.Syntax

/-- The trivia before the first of the tokens. -/
def triviaBefore : List Token → List Piece
  | [] => []
  | t :: _ => t.leading

/-- The trivia that belong to the last of the tokens. -/
def triviaAfter (ts : List Token) : List Piece :=
  match ts.getLast? with
  | some t => t.trailing
  | none => []

/-- The comments on the line on which the trivia begin. -/
def lineComments (ps : List Piece) : List (List Byte) :=
  commentTexts (ps.takeWhile fun p => p.kind != .newline)

/-- The comments on later lines. -/
def laterComments (ps : List Piece) : List (List Byte) :=
  commentTexts (ps.dropWhile fun p => p.kind != .newline)

/-- A statement, all that is between it and the statement before, all that is between it and the next one, and whether
it is the first or the last one. -/
structure Station where
  expr : Expr
  before : List Piece
  after : List Piece
  first : Bool
  last : Bool

/-- The comments before a statement: those on lines of their own, and if nothing is before it also those at the end of
the line on which the block was opened. -/
def Station.ahead (s : Station) : List (List Byte) :=
  if s.first then commentTexts s.before else laterComments s.before

/-- The comments at the end of the line of a statement, and if nothing follows also those on lines of their own. -/
def Station.behind (s : Station) : List (List Byte) :=
  if s.last then commentTexts s.after else lineComments s.after

/-- The comments in a statement. -/
def Station.inside (s : Station) : List (List Byte) := commentTexts (innerTrivia s.expr.tokens)

/-- The trivia before the first of the statements, or before the token after them. -/
def Exprs.triviaUpTo (next : Token) : Exprs → List Piece
  | .nil => next.leading
  | .cons e _ => triviaBefore e.tokens

/-- Is there no statement? -/
def Exprs.noMore : Exprs → Bool
  | .nil => true
  | .cons .. => false

/-- A list of statements after a token with the trailing trivia `prev`, before the token `next`. -/
def stations (first : Bool) (prev : List Piece) (next : Token) : Exprs → List Station
  | .nil => []
  | .cons e es =>
    ⟨e, prev ++ triviaBefore e.tokens, triviaAfter e.tokens ++ es.triviaUpTo next, first, es.noMore⟩ ::
      stations false (triviaAfter e.tokens) next es

/-- The lines `out` have the tokens of the statement, up to braces and assignment operators. The comments before the
statement come before its tokens and the comments behind it after its tokens, both in their order; those inside it come
in between. There are no other comments, except `X` before those before the statement, and `Y` among those inside. -/
def Station.Printed (o : Opts) (X Y : List (List Byte)) (s : Station) (out : List El) : Prop :=
  (∃ l, out = l ++ [.rnl]) ∧
  ∃ A B C, out = A ++ B ++ C ∧
    printedToks A = [] ∧ printedComments A = X ++ s.ahead ∧
    Edits o.style (s.expr.tokens.map outTok) (printedToks B) ∧ (printedComments B).Perm (s.inside ++ Y) ∧
    printedToks C = [] ∧ printedComments C = s.behind

/-- The statements are printed on lines of their own, the first one with `X` and `Y`. -/
def Recited (o : Opts) (X Y : List (List Byte)) : List Station → List (List El) → Prop
  | [], [] => True
  | s :: ss, out :: outs => s.Printed o X Y out ∧ Recited o [] [] ss outs
  | _, _ => False

/-! ## Blocks -/

/-- The comments between the head of a loop, function or condition and its body. A comment ends with its line, so without
a line break there is none. -/
def entering (ps : List Piece) : List (List Byte) :=
  if ps.any (fun p => p.kind == .newline) then commentTexts ps else []

/-- The comments at the end of the line on which the part before `else` ends. -/
def remaining (ps : List Piece) : List (List Byte) :=
  if ps.any (fun p => p.kind == .newline) then lineComments ps else []

/-- Is the body of a statement in braces? Then the comments before it go into the braces. -/
def bodyComments (b : Expr) (cs : List (List Byte)) : List (List Byte) := if b.isBraced then cs else []

/-- An expression in braces, the comments from outside of it that are put before its first statement, and those that are
put into its first statement. -/
structure Block where
  left : Token
  stmts : Exprs
  right : Token
  pre : List (List Byte)
  post : List (List Byte)

mutual
/-- All blocks in an expression. `pre`: comments between `else` and its body, and those on lines of their own before
`else`, if the expression is the part after an `else`; `post`: comments at the end of the line before `else`, if it is
the part before. They go into the braces; if the part after `else` is another condition, they go to its body. -/
def Expr.blocks (pre post : List (List Byte)) : Expr → List Block
  | .atom .. | .str .. => []
  | .paren _ _ e _ => e.blocks [] []
  | .braced _ l es r => ⟨l, es, r, pre, post⟩ :: (if curlies es then [] else es.blocks)
  | .unary _ _ e => e.blocks [] []
  | .binary _ x _ y => x.blocks [] [] ++ y.blocks [] []
  | .sel _ _ x _ y => x.blocks [] [] ++ y.blocks [] []
  | .call _ _ f _ _ items _ => f.blocks [] [] ++ items.blocks
  | .func _ _ _ _ items r b => items.blocks ++
    b.blocks (bodyComments b (entering (r.trailing ++ triviaBefore b.tokens))) []
  | .ite _ _ _ c r t => c.blocks [] [] ++
    t.blocks (bodyComments t (pre ++ entering (r.trailing ++ triviaBefore t.tokens))) []
  | .itee _ _ _ c r t _ el e => c.blocks [] [] ++
    t.blocks (bodyComments t (pre ++ entering (r.trailing ++ triviaBefore t.tokens)))
      (remaining (triviaAfter t.tokens ++ el.leading)) ++
    e.blocks (laterComments (triviaAfter t.tokens ++ el.leading) ++
      entering (el.trailing ++ triviaBefore e.tokens)) []
  | .for_ _ _ _ v _ s r b => v.blocks [] [] ++ s.blocks [] [] ++
    b.blocks (bodyComments b (entering (r.trailing ++ triviaBefore b.tokens))) []
  | .while_ _ _ _ c r b => c.blocks [] [] ++
    b.blocks (bodyComments b (entering (r.trailing ++ triviaBefore b.tokens))) []
  | .repeat_ _ kw b => b.blocks (bodyComments b (entering (kw.trailing ++ triviaBefore b.tokens))) []
def Exprs.blocks : Exprs → List Block
  | .nil => []
  | .cons e es => e.blocks [] [] ++ es.blocks
def Items.blocks : Items → List Block
  | .nil => []
  | .last x => x.blocks
  | .cons x _ xs => x.blocks ++ xs.blocks
def Arg.blocks : Arg → List Block
  | .hole _ => []
  | .val _ e => e.blocks [] []
  | .name _ _ n _ => n.blocks [] []
  | .named _ _ n _ e => n.blocks [] [] ++ e.blocks [] []
  | .pdef _ n _ _ e => n.blocks [] [] ++ e.blocks [] []
end

end Verif.Format
