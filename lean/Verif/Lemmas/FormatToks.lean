import Verif.Lemmas.FormatMain

/-!
# Tokens of shapes, and formatting without conditions

The conditions of `Tame` concern line breaks only: `tame_weak` shows that nothing is needed for the
order of the printed tokens.
-/

namespace Verif.Format
open Verif.Syntax

theorem map_setHead (p : Pos) (ps : List (Pos × Tok)) :
    (setHead p ps).map Prod.snd = ps.map Prod.snd := by cases ps <;> rfl

mutual
theorem shape_toks (g : Region) : (e : Expr) → (shape g e).map Prod.snd = e.tokens.map outTok
  | .atom _ _ _ => rfl
  | .str _ _ c _ => by cases c <;> rfl
  | .paren _ _ e _ => by simp [shape, Expr.tokens, shape_toks _ e]
  | .braced _ _ es _ => by simp [shape, Expr.tokens, shapes_toks _ _ es]
  | .unary _ _ e => by simp [shape, Expr.tokens, shape_toks _ e]
  | .binary _ x _ y => by simp [shape, Expr.tokens, shape_toks _ x, shape_toks _ y]
  | .sel _ .extract x _ y => by simp [shape, Expr.tokens, shape_toks _ x, shape_toks _ y]
  | .sel _ .namespace x _ y => by
    simp [shape, Expr.tokens, shape_toks _ x, shape_toks _ y, map_setHead]
  | .call _ _ f _ _ items _ => by
    simp [shape, Expr.tokens, shape_toks _ f, shapeItems_toks items]
  | .func _ _ _ _ items _ b => by
    simp [shape, Expr.tokens, shape_toks _ b, shapeItems_toks items]
  | .ite _ _ _ c _ t => by simp [shape, Expr.tokens, shape_toks _ c, shape_toks _ t]
  | .itee _ _ _ c _ t _ _ e => by
    simp [shape, Expr.tokens, shape_toks _ c, shape_toks _ t, shape_toks _ e]
  | .for_ _ _ _ v _ s _ b => by
    simp [shape, Expr.tokens, shape_toks _ v, shape_toks _ s, shape_toks _ b]
  | .while_ _ _ _ c _ b => by simp [shape, Expr.tokens, shape_toks _ c, shape_toks _ b]
  | .repeat_ _ _ b => by simp [shape, Expr.tokens, shape_toks _ b]
theorem shapes_toks (g : Region) (p : Pos) :
    (es : Exprs) → (shapes g p es).map Prod.snd = es.tokens.map outTok
  | .nil => rfl
  | .cons e es => by simp [shapes, Exprs.tokens, shape_toks _ e, shapes_toks _ _ es, map_setHead]
theorem shapeItems_toks : (items : Items) →
    (shapeItems items).map Prod.snd = items.tokens.map outTok
  | .nil => rfl
  | .last x => by simp [shapeItems, Items.tokens, shapeArg_toks x]
  | .cons x _ xs => by simp [shapeItems, Items.tokens, shapeArg_toks x, shapeItems_toks xs]
theorem shapeArg_toks : (x : Arg) → (shapeArg x).map Prod.snd = x.tokens.map outTok
  | .hole _ => rfl
  | .val _ e => by simp [shapeArg, Arg.tokens, shape_toks _ e]
  | .name _ _ n _ => by simp [shapeArg, Arg.tokens, shape_toks _ n]
  | .named _ _ n _ e => by simp [shapeArg, Arg.tokens, shape_toks _ n, shape_toks _ e]
  | .pdef _ n _ _ e => by simp [shapeArg, Arg.tokens, shape_toks _ n, shape_toks _ e]
end

theorem printedToks_pieces (ps : List Piece) : printedToks (ps.map pieceEl) = [] := by
  induction ps with
  | nil => rfl
  | cons p ps ih =>
    unfold pieceEl
    cases h : p.kind <;> simp [printedToks, h] <;> exact ih

theorem printedToks_rawEls : (ts : List Token) → printedToks (rawEls ts) = ts.map outTok
  | [] => rfl
  | [t] => rfl
  | t :: u :: ts => by
    rw [rawEls]
    simp only [printedToks, printedToks_append, printedToks_pieces, List.nil_append,
      printedToks_rawEls (u :: ts), List.map_cons]

theorem rawOk_weak {ps : List (Pos × Tok)} {ts : List Token}
    (h : ps.map Prod.snd = ts.map outTok) : RawOk false ps ts :=
  ⟨(fun h => by cases h), by rw [printedToks_rawEls, h]⟩

theorem rawOk_shape (g : Region) (e : Expr) : RawOk false (shape g e) e.tokens :=
  rawOk_weak (shape_toks g e)

theorem vac {p : Prop} : false = true → p := fun h => by cases h

theorem ite_weak {c : Bool} {p q : Prop} (hp : p) (hq : q) : if c = true then p else q := by
  split <;> assumption

mutual
theorem tame_weak (o : Opts) (g : Region) (cx : Cx) : (e : Expr) → Tame false o g cx e
  | .atom _ _ _ => by rw [Tame]; trivial
  | .str .. => by rw [Tame]; exact ite_weak (rawOk_shape _ _) trivial
  | .paren _ _ e _ => by rw [Tame]; exact ite_weak (rawOk_shape _ _) (tame_weak _ _ _ e)
  | .braced _ _ es _ => by rw [Tame]; exact ite_weak (rawOk_shape _ _) (tames_weak _ _ _ _ es)
  | .unary _ _ e => by rw [Tame]; exact ite_weak (rawOk_shape _ _) (tame_weak _ _ _ e)
  | .binary _ x _ y => by
    rw [Tame]; exact ite_weak (rawOk_shape _ _) ⟨vac, tame_weak _ _ _ x, tame_weak _ _ _ y⟩
  | .sel _ _ x _ y => by
    rw [Tame]; exact ite_weak (rawOk_shape _ _) ⟨vac, vac, tame_weak _ _ _ x, tame_weak _ _ _ y⟩
  | .call _ _ f _ _ items _ => by
    rw [Tame]
    refine ite_weak (rawOk_shape _ _) ⟨vac, tame_weak _ _ _ f, tameItems_weak _ _ _ items, ?_⟩
    refine fun _ => ⟨vac, rawOk_weak ?_⟩
    simp [shapeItems_toks]
  | .func _ _ _ _ items _ b => by
    rw [Tame]
    exact ite_weak (rawOk_shape _ _)
      ⟨tameItems_weak _ _ _ items, fun _ => tame_weak _ _ _ b, tame_weak _ _ _ b⟩
  | .ite _ _ _ c _ t => by
    rw [Tame]
    exact ite_weak (rawOk_shape _ _)
      ⟨tame_weak _ _ _ c, fun _ => tame_weak _ _ _ t, tame_weak _ _ _ t⟩
  | .itee _ _ _ c _ t _ _ e => by
    rw [Tame]
    exact ite_weak (rawOk_shape _ _)
      ⟨tame_weak _ _ _ c, fun _ => ⟨tame_weak _ _ _ t, vac⟩, tame_weak _ _ _ t, vac,
        fun _ => tame_weak _ _ _ e, tame_weak _ _ _ e⟩
  | .for_ _ _ _ v _ s _ b => by
    rw [Tame]
    exact ite_weak (rawOk_shape _ _)
      ⟨tame_weak _ _ _ v, tame_weak _ _ _ s, tame_weak _ _ _ b, fun _ => tame_weak _ _ _ b⟩
  | .while_ _ _ _ c _ b => by
    rw [Tame]
    exact ite_weak (rawOk_shape _ _)
      ⟨tame_weak _ _ _ c, tame_weak _ _ _ b, fun _ => tame_weak _ _ _ b⟩
  | .repeat_ _ _ b => by
    rw [Tame]
    exact ite_weak (rawOk_shape _ _) ⟨tame_weak _ _ _ b, fun _ => tame_weak _ _ _ b⟩
theorem tames_weak (o : Opts) (g : Region) (cx : Cx) (top : Bool) :
    (es : Exprs) → Tames false o g cx top es
  | .nil => by rw [Tames]; trivial
  | .cons e es => by rw [Tames]; exact ⟨tame_weak _ _ _ e, tames_weak _ _ _ _ es⟩
theorem tameItems_weak (o : Opts) (cx : Cx) (dir : Bool) :
    (items : Items) → TameItems false o cx dir items
  | .nil => by rw [TameItems]; trivial
  | .last x => by rw [TameItems]; exact tameArg_weak _ _ _ x
  | .cons x _ xs => by rw [TameItems]; exact ⟨tameArg_weak _ _ _ x, tameItems_weak _ _ _ xs⟩
theorem tameArg_weak (o : Opts) (cx : Cx) (dir : Bool) : (x : Arg) → TameArg false o cx dir x
  | .hole _ => by rw [TameArg]; trivial
  | .val _ e => by rw [TameArg]; exact ⟨fun _ => rawOk_shape _ _, tame_weak _ _ _ e⟩
  | .name _ _ n _ => by
    rw [TameArg]; exact ⟨fun _ => rawOk_weak (shapeArg_toks _), tame_weak _ _ _ n⟩
  | .named _ _ n _ e => by
    rw [TameArg]
    exact ⟨fun _ => rawOk_weak (shapeArg_toks _), tame_weak _ _ _ n, tame_weak _ _ _ e⟩
  | .pdef _ n _ _ e => by
    rw [TameArg]
    exact ⟨fun _ => rawOk_weak (shapeArg_toks _), tame_weak _ _ _ n, tame_weak _ _ _ e⟩
end

end Verif.Format
