import Verif.Spec.Becomes

/-!
# Statements on separate lines
-/

namespace Verif.Format
open Verif.Syntax

/-- Blank lines in the source between an expression (given by its tokens) and what precedes it,
counted up to the first comment. -/
def blankLines : List Token → Nat
  | [] => 0
  | t :: _ => ((t.leading.takeWhile (fun p => p.kind != .comment)).countP (fun p => p.kind == .newline)) - 1

/-- Blank lines in front of the first of the statements. -/
def Exprs.blanks : Exprs → Nat
  | .nil => 0
  | .cons e _ => blankLines e.tokens

/-- Indentation. -/
def indentation (i : Nat) : List El := if i = 0 then [] else [.blank (List.replicate i 9)]

/-- A token or a comment. -/
def El.isText : El → Bool
  | .tok _ | .comment _ => true
  | _ => false

/-- `out` starts and ends with a token or a comment, and its tokens are those of `e` after
formatting. -/
def Statement (o : Opts) (p : Place) (e : Expr) (out : List El) : Prop :=
  (∃ a r, out = a :: r ∧ a.isText = true) ∧ (∃ r a, out = r ++ [a] ∧ a.isText = true) ∧
  ∃ e', Becomes o p e e' ∧ printedToks out = e'.tokens.map outTok

/-- `out` is a list of statements, each on lines of its own, indented by `i`; between two of them there
are the blank lines of the source, but at most `limit`. -/
def Listing (o : Opts) (top : Bool) (limit i : Nat) : Exprs → List El → Prop
  | .nil, out => out = []
  | .cons e es, out => ∃ a,
      Statement o { effect := top || 0 < es.length, assign := true } e a ∧
      (es = .nil ∧ out = a ∨
        ∃ b, Listing o top limit i es b ∧
          out = a ++ List.replicate (1 + min es.blanks limit) .rnl ++ indentation i ++ b)

/-! ## Parts of an expression -/

/-- The expressions inside the braces `{{ x }}` (curly-curly) are no parts. -/
def curlies : Exprs → Bool
  | .cons (.braced _ _ (.cons (.atom _ .rIdentifier _) .nil) _) .nil => true
  | _ => false

mutual
/-- `b` is `e` or part of it. -/
def Within (b : Expr) : Expr → Prop
  | .atom a k t => b = .atom a k t
  | .str a p c l => b = .str a p c l
  | .paren a l e r => b = .paren a l e r ∨ Within b e
  | .braced a l es r => b = .braced a l es r ∨ (curlies es = false ∧ Withins b es)
  | .unary a p e => b = .unary a p e ∨ Within b e
  | .binary a x p y => b = .binary a x p y ∨ Within b x ∨ Within b y
  | .sel a k x p y => b = .sel a k x p y ∨ Within b x ∨ Within b y
  | .call a k f aa l items r => b = .call a k f aa l items r ∨ Within b f ∨ WithinItems b items
  | .func a kw pa l items r e => b = .func a kw pa l items r e ∨ WithinItems b items ∨ Within b e
  | .ite a kw l c r t => b = .ite a kw l c r t ∨ Within b c ∨ Within b t
  | .itee a kw l c r t ea el e =>
    b = .itee a kw l c r t ea el e ∨ Within b c ∨ Within b t ∨ Within b e
  | .for_ a kw l v i s r e => b = .for_ a kw l v i s r e ∨ Within b v ∨ Within b s ∨ Within b e
  | .while_ a kw l c r e => b = .while_ a kw l c r e ∨ Within b c ∨ Within b e
  | .repeat_ a kw e => b = .repeat_ a kw e ∨ Within b e
def Withins (b : Expr) : Exprs → Prop
  | .nil => False
  | .cons e es => Within b e ∨ Withins b es
def WithinItems (b : Expr) : Items → Prop
  | .nil => False
  | .last x => WithinArg b x
  | .cons x _ xs => WithinArg b x ∨ WithinItems b xs
def WithinArg (b : Expr) : Arg → Prop
  | .hole _ => False
  | .val _ e => Within b e
  | .name _ _ n _ => Within b n
  | .named _ _ n _ e => Within b n ∨ Within b e
  | .pdef _ n _ _ e => Within b n ∨ Within b e
end

end Verif.Format
