import Verif.Model.Ast

/-!
# Source text
-/

namespace Verif.Format
open Verif.Syntax

/-- Text of some trivia. -/
def piecesText (ps : List Piece) : List Byte := ps.flatMap Piece.text

/-- Text from the first to the last token of a node. -/
def nodeText : List Token → List Byte
  | [] => []
  | [t] => t.text
  | t :: u :: ts => t.text ++ piecesText t.trailing ++ piecesText u.leading ++ nodeText (u :: ts)

/-- Text of a file. -/
def fileText (ts : List Token) (eof : Token) : List Byte :=
  ts.flatMap (fun t => piecesText t.leading ++ t.text ++ piecesText t.trailing) ++
    piecesText eof.leading

/-- The line breaks of the text are line feeds, between tokens and in strings. -/
def LineFeeds (ts : List Token) : Prop :=
  ∀ t ∈ ts, (∀ p ∈ t.leading ++ t.trailing, p.kind = .newline → p.text = [10]) ∧
    ∀ a b, t.text ≠ a ++ 13 :: 10 :: b

/-! ## Changing trivia -/

/-- Change every comment. -/
def Ann.map (k : Comment → Comment) (a : Ann) : Ann := ⟨a.leading.map k, a.dangling.map k, a.trailing.map k⟩

mutual
/-- Change every token and every comment. -/
def Expr.map (g : Token → Token) (k : Comment → Comment) : Expr → Expr
  | .atom a n t => .atom (a.map k) n (g t)
  | .str a o c l => .str (a.map k) (g o) (c.map g) (g l)
  | .paren a l e r => .paren (a.map k) (g l) (e.map g k) (g r)
  | .braced a l es r => .braced (a.map k) (g l) (es.map g k) (g r)
  | .unary a o e => .unary (a.map k) (g o) (e.map g k)
  | .binary a x o y => .binary (a.map k) (x.map g k) (g o) (y.map g k)
  | .sel a n x o y => .sel (a.map k) n (x.map g k) (g o) (y.map g k)
  | .call a n f aa l items r => .call (a.map k) n (f.map g k) (aa.map k) (g l) (items.map g k) (g r)
  | .func a kw pa l items r b => .func (a.map k) (g kw) (pa.map k) (g l) (items.map g k) (g r) (b.map g k)
  | .ite a kw l c r t => .ite (a.map k) (g kw) (g l) (c.map g k) (g r) (t.map g k)
  | .itee a kw l c r t ea el e =>
    .itee (a.map k) (g kw) (g l) (c.map g k) (g r) (t.map g k) (ea.map k) (g el) (e.map g k)
  | .for_ a kw l v i s r b =>
    .for_ (a.map k) (g kw) (g l) (v.map g k) (g i) (s.map g k) (g r) (b.map g k)
  | .while_ a kw l c r b => .while_ (a.map k) (g kw) (g l) (c.map g k) (g r) (b.map g k)
  | .repeat_ a kw b => .repeat_ (a.map k) (g kw) (b.map g k)
def Exprs.map (g : Token → Token) (k : Comment → Comment) : Exprs → Exprs
  | .nil => .nil
  | .cons e es => .cons (e.map g k) (es.map g k)
def Items.map (g : Token → Token) (k : Comment → Comment) : Items → Items
  | .nil => .nil
  | .last x => .last (x.map g k)
  | .cons x s xs => .cons (x.map g k) (g s) (xs.map g k)
def Arg.map (g : Token → Token) (k : Comment → Comment) : Arg → Arg
  | .hole a => .hole (a.map k)
  | .val a e => .val (a.map k) (e.map g k)
  | .name a na n q => .name (a.map k) (na.map k) (n.map g k) (g q)
  | .named a na n q e => .named (a.map k) (na.map k) (n.map g k) (g q) (e.map g k)
  | .pdef a n da q e => .pdef (a.map k) (n.map g k) (da.map k) (g q) (e.map g k)
end

/-- Trivia without blanks. -/
def unblank (ps : List Piece) : List Piece := ps.filter (fun p => p.kind != .whitespace)

/-- The token without the blanks around it. -/
def Token.unblank (t : Token) : Token :=
  { t with leading := Format.unblank t.leading, trailing := Format.unblank t.trailing }

end Verif.Format
