import Verif.Spec.Grammar

/-!
# Programs with a gap

A program with a gap for some statements, as a function of these statements. `A` and `B` are the tokens before and
after the gap.
-/

namespace Verif.Format
open Verif.Syntax

/-- Statements one after the other. -/
def Exprs.append : Exprs → Exprs → Exprs
  | .nil, ys => ys
  | .cons x xs, ys => .cons x (xs.append ys)

mutual
/-- A gap inside of an expression, which is inside of braces then. -/
inductive InExpr : List Token → (Exprs → Expr) → List Token → Prop
  | paren (a : Ann) (l r : Token) (h : InExpr A C B) :
      InExpr (l :: A) (fun m => .paren a l (C m) r) (B ++ [r])
  | braced (a : Ann) (l r : Token) (hl : l.kind = .lCurly) (hr : r.kind = .rCurly) (h : InExprs A C B) :
      InExpr (l :: A) (fun m => .braced a l (C m) r) (B ++ [r])
  | unary (a : Ann) (p : Token) (h : InExpr A C B) :
      InExpr (p :: A) (fun m => .unary a p (C m)) B
  | binaryL (a : Ann) (p : Token) (y : Expr) (h : InExpr A C B) :
      InExpr A (fun m => .binary a (C m) p y) (B ++ p :: y.tokens)
  | binaryR (a : Ann) (x : Expr) (p : Token) (h : InExpr A C B) :
      InExpr (x.tokens ++ p :: A) (fun m => .binary a x p (C m)) B
  | sel (a : Ann) (k : SelKind) (p : Token) (y : Expr) (h : InExpr A C B) :
      InExpr A (fun m => .sel a k (C m) p y) (B ++ p :: y.tokens)
  | callF (a : Ann) (k : CallKind) (aa : Ann) (l : Token) (items : Items) (r : Token) (h : InExpr A C B) :
      InExpr A (fun m => .call a k (C m) aa l items r) (B ++ l :: (items.tokens ++ [r]))
  | callA (a : Ann) (k : CallKind) (f : Expr) (aa : Ann) (l r : Token) (h : InItems A C B) :
      InExpr (f.tokens ++ l :: A) (fun m => .call a k f aa l (C m) r) (B ++ [r])
  | funcP (a : Ann) (kw : Token) (pa : Ann) (l r : Token) (b : Expr) (h : InItems A C B) :
      InExpr (kw :: l :: A) (fun m => .func a kw pa l (C m) r b) (B ++ r :: b.tokens)
  | funcB (a : Ann) (kw : Token) (pa : Ann) (l : Token) (items : Items) (r : Token) (h : InExpr A C B) :
      InExpr (kw :: l :: (items.tokens ++ r :: A)) (fun m => .func a kw pa l items r (C m)) B
  | iteC (a : Ann) (kw l r : Token) (t : Expr) (h : InExpr A C B) :
      InExpr (kw :: l :: A) (fun m => .ite a kw l (C m) r t) (B ++ r :: t.tokens)
  | iteT (a : Ann) (kw l : Token) (c : Expr) (r : Token) (h : InExpr A C B) :
      InExpr (kw :: l :: (c.tokens ++ r :: A)) (fun m => .ite a kw l c r (C m)) B
  | iteeC (a : Ann) (kw l r : Token) (t : Expr) (ea : Ann) (el : Token) (e : Expr) (h : InExpr A C B) :
      InExpr (kw :: l :: A) (fun m => .itee a kw l (C m) r t ea el e)
        (B ++ r :: (t.tokens ++ el :: e.tokens))
  | iteeT (a : Ann) (kw l : Token) (c : Expr) (r : Token) (ea : Ann) (el : Token) (e : Expr) (h : InExpr A C B) :
      InExpr (kw :: l :: (c.tokens ++ r :: A)) (fun m => .itee a kw l c r (C m) ea el e) (B ++ el :: e.tokens)
  | iteeE (a : Ann) (kw l : Token) (c : Expr) (r : Token) (t : Expr) (ea : Ann) (el : Token) (h : InExpr A C B) :
      InExpr (kw :: l :: (c.tokens ++ r :: (t.tokens ++ el :: A))) (fun m => .itee a kw l c r t ea el (C m)) B
  | forS (a : Ann) (kw l : Token) (v : Expr) (i r : Token) (b : Expr) (h : InExpr A C B) :
      InExpr (kw :: l :: (v.tokens ++ i :: A)) (fun m => .for_ a kw l v i (C m) r b) (B ++ r :: b.tokens)
  | forB (a : Ann) (kw l : Token) (v : Expr) (i : Token) (s : Expr) (r : Token) (h : InExpr A C B) :
      InExpr (kw :: l :: (v.tokens ++ i :: (s.tokens ++ r :: A))) (fun m => .for_ a kw l v i s r (C m)) B
  | whileC (a : Ann) (kw l r : Token) (b : Expr) (h : InExpr A C B) :
      InExpr (kw :: l :: A) (fun m => .while_ a kw l (C m) r b) (B ++ r :: b.tokens)
  | whileB (a : Ann) (kw l : Token) (c : Expr) (r : Token) (h : InExpr A C B) :
      InExpr (kw :: l :: (c.tokens ++ r :: A)) (fun m => .while_ a kw l c r (C m)) B
  | repeat_ (a : Ann) (kw : Token) (h : InExpr A C B) :
      InExpr (kw :: A) (fun m => .repeat_ a kw (C m)) B
/-- A gap among statements or inside of one of them. -/
inductive InExprs : List Token → (Exprs → Exprs) → List Token → Prop
  | here (post : Exprs) : InExprs [] (fun m => m.append post) post.tokens
  | item (es : Exprs) (h : InExpr A C B) : InExprs A (fun m => .cons (C m) es) (B ++ es.tokens)
  | next (e : Expr) (h : InExprs A C B) : InExprs (e.tokens ++ A) (fun m => .cons e (C m)) B
/-- A gap inside of an argument or parameter. -/
inductive InItems : List Token → (Exprs → Items) → List Token → Prop
  | last (h : InArg A C B) : InItems A (fun m => .last (C m)) B
  | item (s : Token) (xs : Items) (h : InArg A C B) : InItems A (fun m => .cons (C m) s xs) (B ++ s :: xs.tokens)
  | next (x : Arg) (s : Token) (h : InItems A C B) : InItems (x.tokens ++ s :: A) (fun m => .cons x s (C m)) B
inductive InArg : List Token → (Exprs → Arg) → List Token → Prop
  | val (a : Ann) (h : InExpr A C B) : InArg A (fun m => .val a (C m)) B
  | named (a na : Ann) (n : Expr) (q : Token) (h : InExpr A C B) :
      InArg (n.tokens ++ q :: A) (fun m => .named a na n q (C m)) B
  | pdef (a : Ann) (n : Expr) (da : Ann) (q : Token) (h : InExpr A C B) :
      InArg (n.tokens ++ q :: A) (fun m => .pdef a n da q (C m)) B
end

end Verif.Format
