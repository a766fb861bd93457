import Verif.Spec.Contexts
import Verif.Lemmas.FormatSource
import Verif.Lemmas.LexTrack
import Verif.Lemmas.Factory

/-! # Programs with a gap -/

namespace Verif.Format
open Verif.Syntax

theorem tokens_append : (xs ys : Exprs) → (xs.append ys).tokens = xs.tokens ++ ys.tokens
  | .nil, _ => rfl
  | .cons x xs, ys => by rw [Exprs.append, Exprs.tokens, tokens_append xs ys, Exprs.tokens, List.append_assoc]

theorem gram_append : (xs ys : Exprs) → (xs.append ys).gram = (xs.gram && ys.gram)
  | .nil, _ => by simp [Exprs.append, Exprs.gram]
  | .cons x xs, ys => by simp [Exprs.append, Exprs.gram, gram_append xs ys, Bool.and_assoc]

theorem shapes_append (g : Region) : (p : Pos) → (xs ys : Exprs) → xs ≠ .nil →
    shapes g p (xs.append ys) = shapes g p xs ++ shapes g .need ys
  | _, .nil, _, h => absurd rfl h
  | _, .cons x .nil, ys, _ => by simp [Exprs.append, shapes]
  | p, .cons x (.cons y xs), ys, _ => by
    rw [Exprs.append, shapes, shapes_append g .need (.cons y xs) ys (by simp), ← List.append_assoc, ← shapes]

/-! ## Tokens -/

mutual
theorem InExpr.tokens : InExpr A C B → ∀ m, (C m).tokens = A ++ m.tokens ++ B
  | .paren _ _ _ h, m | .unary _ _ h, m | .binaryL _ _ _ h, m | .binaryR _ _ _ h, m | .sel _ _ _ _ h, m
  | .callF _ _ _ _ _ _ h, m | .funcB _ _ _ _ _ _ h, m | .iteC _ _ _ _ _ h, m | .iteT _ _ _ _ _ h, m
  | .iteeC _ _ _ _ _ _ _ _ h, m | .iteeT _ _ _ _ _ _ _ _ h, m | .iteeE _ _ _ _ _ _ _ _ h, m
  | .forS _ _ _ _ _ _ _ h, m | .forB _ _ _ _ _ _ _ h, m | .whileC _ _ _ _ _ h, m | .whileB _ _ _ _ _ h, m
  | .repeat_ _ _ h, m => by simp [Expr.tokens, InExpr.tokens h m]
  | .braced _ _ _ _ _ h, m => by simp [Expr.tokens, InExprs.tokens h m]
  | .callA _ _ _ _ _ _ h, m | .funcP _ _ _ _ _ _ h, m => by simp [Expr.tokens, InItems.tokens h m]
theorem InExprs.tokens : InExprs A C B → ∀ m, (C m).tokens = A ++ m.tokens ++ B
  | .here post, m => by simp [tokens_append]
  | .item es h, m => by simp [Exprs.tokens, InExpr.tokens h m]
  | .next e h, m => by simp [Exprs.tokens, InExprs.tokens h m]
theorem InItems.tokens : InItems A C B → ∀ m, (C m).tokens = A ++ m.tokens ++ B
  | .last h, m => by simp [Items.tokens, InArg.tokens h m]
  | .item s xs h, m => by simp [Items.tokens, InArg.tokens h m]
  | .next x s h, m => by simp [Items.tokens, InItems.tokens h m]
theorem InArg.tokens : InArg A C B → ∀ m, (C m).tokens = A ++ m.tokens ++ B
  | .val _ h, m => by simp [Arg.tokens, InExpr.tokens h m]
  | .named _ _ _ _ h, m => by simp [Arg.tokens, InExpr.tokens h m]
  | .pdef _ _ _ _ h, m => by simp [Arg.tokens, InExpr.tokens h m]
end

/-! ## Line breaks -/

/-- The requirements on line breaks around the gap, which is in the region `g`, with `p` for its first token. -/
def Around (f : Exprs → List (Pos × Tok)) (g : Region) (p : Pos) (S1 S3 : List (Pos × Tok)) : Prop :=
  ∀ m, m ≠ .nil → f m = S1 ++ shapes g p m ++ S3

/-- What comes after the gap: the start of a statement or the brace that closes the block. -/
def StmtOrEnd (S3 : List (Pos × Tok)) : Prop :=
  ∀ x ∈ S3.head?, x.1 = .need ∨ x.1 = .free ∧ ∃ r : Token, r.kind = .rCurly ∧ x.2 = outTok r

/-- Inside of braces: something is before the gap. -/
def Enclosed (A : List Token) (f : Exprs → List (Pos × Tok)) : Prop :=
  ∃ p S1 S3, Around f .brace p S1 S3 ∧ S1 ≠ [] ∧ S1.map Prod.snd = A.map outTok ∧ S3 ≠ [] ∧ StmtOrEnd S3 ∧
    (p = .need ∨ ∃ A' l, A = A' ++ [l] ∧ l.kind = .lCurly ∧ p = .free)

theorem StmtOrEnd.append {S3 b : List (Pos × Tok)} (h : StmtOrEnd S3) (hn : S3 ≠ []) : StmtOrEnd (S3 ++ b) := by
  cases S3 with
  | nil => exact absurd rfl hn
  | cons x S3 => exact h

theorem Enclosed.wrap {A A1 : List Token} {f f' : Exprs → List (Pos × Tok)} (h : Enclosed A f) (A0 : List Token)
    (a b : List (Pos × Tok)) (hA : A1 = A0 ++ A ∧ a.map Prod.snd = A0.map outTok) (hf : ∀ m, f' m = a ++ f m ++ b) : Enclosed A1 f' := by
  obtain ⟨p, S1, S3, h1, h2, h6, h3, h4, h5⟩ := h
  obtain ⟨hA, ha⟩ := hA
  refine ⟨p, a ++ S1, S3 ++ b, fun m hm => by rw [hf, h1 m hm]; simp, by simp [h2], by simp [hA, ha, h6], by simp [h3],
    h4.append h3, ?_⟩
  rcases h5 with h5 | ⟨A', l, rfl, h5⟩
  · exact .inl h5
  · exact .inr ⟨A0 ++ A', l, by simp [hA], h5⟩

theorem Enclosed.head {A : List Token} {f : Exprs → List (Pos × Tok)} (h : Enclosed A f) (q : Pos) :
    Enclosed A (fun m => setHead q (f m)) := by
  obtain ⟨p, S1, S3, h1, h2, h4, h3⟩ := h
  refine ⟨p, setHead q S1, S3, fun m hm => ?_, ?_, by simpa [map_setHead] using h4, h3⟩
  · simp only [h1 m hm]
    cases S1 with
    | nil => exact absurd rfl h2
    | cons => rfl
  · cases S1 with
    | nil => exact absurd rfl h2
    | cons => simp [setHead]

theorem closes_shapes (g : Region) : (es : Exprs) → StmtOrEnd (shapes g .need es)
  | .nil => by simp [shapes, StmtOrEnd]
  | .cons e es => by
    intro x hx
    rw [shapes] at hx
    cases hs : Format.shape g e with
    | nil => rw [hs] at hx; exact closes_shapes g es x (by simpa [setHead] using hx)
    | cons y ys => rw [hs] at hx; simp [setHead] at hx; left; rw [← hx]

attribute [local simp] shape_toks shapes_toks shapeItems_toks shapeArg_toks map_setHead

mutual
theorem InExpr.shape (g : Region) : InExpr A C B → Enclosed A (fun m => shape g (C m))
  | .paren _ l r h => (InExpr.shape .paren h).wrap [l] [(.free, outTok l)] [(.free, outTok r)] (by simp)
      (by simp [Format.shape])
  | .braced _ l r hl hr h => by
    rcases InExprs.shape .brace .free h with hh | ⟨p, S1, S3, h1, h4, h2, h3⟩
    · exact hh.wrap [l] [(.free, outTok l)] [(.free, outTok r)] (by simp) (by simp [Format.shape])
    · refine ⟨p, (.free, outTok l) :: S1, S3 ++ [(.free, outTok r)],
        fun m hm => by simp [Format.shape, h1 m hm], by simp, by simp [h4], by simp, ?_, ?_⟩
      · cases S3 with
        | nil => intro x hx; right; simp at hx; subst hx; exact ⟨rfl, r, hr, rfl⟩
        | cons x S3 => exact h2.append (by simp)
      · rcases h3 with h3 | ⟨rfl, h3⟩
        · exact .inl h3
        · exact .inr ⟨[], l, rfl, hl, h3⟩
  | .unary _ o h => (InExpr.shape g h).wrap [o] [(.free, outTok o)] [] (by simp) (by simp [Format.shape])
  | .binaryL _ o y h => (InExpr.shape g h).wrap [] [] ((g.op, outTok o) :: Format.shape g y) (by simp)
      (by simp [Format.shape])
  | .binaryR _ x o h => (InExpr.shape g h).wrap (x.tokens ++ [o]) (Format.shape g x ++ [(g.op, outTok o)]) []
      (by simp) (by simp [Format.shape])
  | .sel _ k o y h => by
    cases k
    · exact (InExpr.shape g h).wrap [] [] ((g.op, outTok o) :: Format.shape g y) (by simp) (by simp [Format.shape])
    · exact (InExpr.shape g h).wrap [] [] ((g.op, outTok o) :: setHead g.op (Format.shape g y)) (by simp)
        (by simp [Format.shape])
  | .callF _ _ _ l items r h => (InExpr.shape g h).wrap [] []
      ((g.op, outTok l) :: (shapeItems items ++ [(.free, outTok r)])) (by simp) (by simp [Format.shape])
  | .callA _ _ f _ l r h => (InItems.shape h).wrap (f.tokens ++ [l]) (Format.shape g f ++ [(g.op, outTok l)])
      [(.free, outTok r)] (by simp) (by simp [Format.shape])
  | .funcP _ kw _ l r b h => (InItems.shape h).wrap [kw, l] [(.free, outTok kw), (.free, outTok l)]
      ((.free, outTok r) :: Format.shape g b) (by simp) (by simp [Format.shape])
  | .funcB _ kw _ l items r h => (InExpr.shape g h).wrap (kw :: l :: (items.tokens ++ [r]))
      ((.free, outTok kw) :: (.free, outTok l) :: (shapeItems items ++ [(.free, outTok r)])) []
      (by simp) (by simp [Format.shape])
  | .iteC _ kw l r t h => (InExpr.shape .paren h).wrap [kw, l] [(.free, outTok kw), (.free, outTok l)]
      ((.free, outTok r) :: Format.shape g t) (by simp) (by simp [Format.shape])
  | .iteT _ kw l c r h => (InExpr.shape g h).wrap (kw :: l :: (c.tokens ++ [r]))
      ((.free, outTok kw) :: (.free, outTok l) :: (Format.shape .paren c ++ [(.free, outTok r)])) []
      (by simp) (by simp [Format.shape])
  | .iteeC _ kw l r t _ el e h => (InExpr.shape .paren h).wrap [kw, l] [(.free, outTok kw), (.free, outTok l)]
      ((.free, outTok r) :: (Format.shape g t ++ (g.els, outTok el) :: Format.shape g e)) (by simp)
      (by simp [Format.shape])
  | .iteeT _ kw l c r _ el e h => (InExpr.shape g h).wrap (kw :: l :: (c.tokens ++ [r]))
      ((.free, outTok kw) :: (.free, outTok l) :: (Format.shape .paren c ++ [(.free, outTok r)]))
      ((g.els, outTok el) :: Format.shape g e) (by simp) (by simp [Format.shape])
  | .iteeE _ kw l c r t _ el h => (InExpr.shape g h).wrap (kw :: l :: (c.tokens ++ r :: (t.tokens ++ [el])))
      ((.free, outTok kw) :: (.free, outTok l) :: (Format.shape .paren c ++ (.free, outTok r) ::
        (Format.shape g t ++ [(g.els, outTok el)]))) [] (by simp) (by simp [Format.shape])
  | .forS _ kw l v i r b h => (InExpr.shape .paren h).wrap (kw :: l :: (v.tokens ++ [i]))
      ((.free, outTok kw) :: (.free, outTok l) :: (Format.shape .paren v ++ [(.free, outTok i)]))
      ((.free, outTok r) :: Format.shape g b) (by simp) (by simp [Format.shape])
  | .forB _ kw l v i s r h => (InExpr.shape g h).wrap (kw :: l :: (v.tokens ++ i :: (s.tokens ++ [r])))
      ((.free, outTok kw) :: (.free, outTok l) :: (Format.shape .paren v ++ (.free, outTok i) ::
        (Format.shape .paren s ++ [(.free, outTok r)]))) [] (by simp) (by simp [Format.shape])
  | .whileC _ kw l r b h => (InExpr.shape .paren h).wrap [kw, l] [(.free, outTok kw), (.free, outTok l)]
      ((.free, outTok r) :: Format.shape g b) (by simp) (by simp [Format.shape])
  | .whileB _ kw l c r h => (InExpr.shape g h).wrap (kw :: l :: (c.tokens ++ [r]))
      ((.free, outTok kw) :: (.free, outTok l) :: (Format.shape .paren c ++ [(.free, outTok r)])) []
      (by simp) (by simp [Format.shape])
  | .repeat_ _ kw h => (InExpr.shape g h).wrap [kw] [(.free, outTok kw)] [] (by simp) (by simp [Format.shape])
theorem InExprs.shape (g : Region) (q : Pos) : InExprs A C B → Enclosed A (fun m => shapes g q (C m)) ∨
    ∃ p S1 S3, Around (fun m => shapes g q (C m)) g p S1 S3 ∧ S1.map Prod.snd = A.map outTok ∧ StmtOrEnd S3 ∧ (p = .need ∨ A = [] ∧ p = q)
  | .here post => .inr ⟨q, [], shapes g .need post, fun m hm => by simp [shapes_append _ _ _ _ hm],
      rfl, closes_shapes _ _, .inr ⟨rfl, rfl⟩⟩
  | .item es h => .inl (((InExpr.shape g h).head q).wrap [] [] (shapes g .need es) (by simp) (by simp [shapes]))
  | .next e h => by
    rcases InExprs.shape g .need h with hh | ⟨p, S1, S3, h1, h4, h2, h3⟩
    · exact .inl (hh.wrap e.tokens (setHead q (Format.shape g e)) [] (by simp) (by simp [shapes]))
    · refine .inr ⟨p, setHead q (Format.shape g e) ++ S1, S3, fun m hm => by simp [shapes, h1 m hm],
        by simp [h4], h2, .inl ?_⟩
      rcases h3 with h3 | ⟨-, h3⟩ <;> exact h3
theorem InItems.shape : InItems A C B → Enclosed A (fun m => shapeItems (C m))
  | .last h => by simpa [shapeItems] using InArg.shape h
  | .item s xs h => (InArg.shape h).wrap [] [] ((.free, outTok s) :: shapeItems xs) (by simp) (by simp [shapeItems])
  | .next x s h => (InItems.shape h).wrap (x.tokens ++ [s]) (shapeArg x ++ [(.free, outTok s)]) []
      (by simp) (by simp [shapeItems])
theorem InArg.shape : InArg A C B → Enclosed A (fun m => shapeArg (C m))
  | .val _ h => by simpa [shapeArg] using InExpr.shape .paren h
  | .named a na n q h => (InExpr.shape .paren h).wrap (n.tokens ++ [q])
      (Format.shape .paren n ++ [(.free, outTok q)]) [] (by simp) (by simp [shapeArg])
  | .pdef a n da q h => (InExpr.shape .paren h).wrap (n.tokens ++ [q])
      (Format.shape .paren n ++ [(.free, outTok q)]) [] (by simp) (by simp [shapeArg])
end

/-- Statements in the gap of a file. -/
theorem InExprs.file (h : InExprs A C B) : ∃ g p S1 S3, g ≠ Region.paren ∧
    Around (fun m => shapes .top .free (C m)) g p S1 S3 ∧ S1.map Prod.snd = A.map outTok ∧ StmtOrEnd S3 ∧
    (p = .need ∨ p = .free ∧ (A = [] ∨ ∃ A' l, A = A' ++ [l] ∧ l.kind = .lCurly)) := by
  rcases h.shape .top .free with ⟨p, S1, S3, h1, h2, h3, h4, h5, h6⟩ | ⟨p, S1, S3, h1, h2, h3, h4⟩
  · refine ⟨.brace, p, S1, S3, by simp, h1, h3, h5, ?_⟩
    rcases h6 with h6 | ⟨A', l, h6, h7, h8⟩
    · exact .inl h6
    · exact .inr ⟨h8, .inr ⟨A', l, h6, h7⟩⟩
  · refine ⟨.top, p, S1, S3, by simp, h1, h2, h3, ?_⟩
    rcases h4 with h4 | ⟨h4, h5⟩
    · exact .inl h4
    · exact .inr ⟨h5, .inl h4⟩

end Verif.Format
