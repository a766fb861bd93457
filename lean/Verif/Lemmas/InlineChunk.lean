import Verif.Lemmas.Inline

/-!
# The printer prints expressions on one line as they are
-/

namespace Verif.Format
open Verif.Syntax

variable {o : Opts}

theorem chunk_word {t : Token} {L : List El} (h : oneTok t = some L) : Chunk L := by
  cases h
  exact chunk_tok _

theorem blank_some {L : List El} (h : blank = some L) : L = [.blank [32]] := by
  cases h
  rfl

/-- An argument on one line: nothing, or a text, possibly with a space at the end. -/
def ArgChunk (L : List El) : Prop := L = [] ∨ Chunk L ∨ ∃ M, L = M ++ [.blank [32]] ∧ Chunk M

theorem chunk_gap {M G A : List El} {t : Tok} (hm : Chunk M) (hg : G = [] ∨ G = [.blank [32]]) (ha : ArgChunk A) :
    Chunk (M ++ (G ++ (A ++ [.tok t]))) := by
  have ht := chunk_tok t
  rcases hg with rfl | rfl <;> rcases ha with rfl | ha | ⟨B, rfl, hb⟩
  · exact chunk_append hm ht
  · exact chunk_append hm (show Chunk (A ++ [.tok t]) from chunk_append ha ht)
  · rw [List.append_assoc]
    exact chunk_append hm (chunk_blank hb ht)
  · exact chunk_blank hm ht
  · exact chunk_blank hm (chunk_append ha ht)
  · rw [List.append_assoc]
    exact chunk_blank hm (chunk_blank hb ht)

theorem between_some {first omitted : Bool} {x : Arg} {G : List El} (h : between first omitted x = some G) :
    G = [] ∨ G = [.blank [32]] := by
  unfold between at h
  split at h
  · cases h; exact .inl rfl
  · exact .inr (blank_some h)

mutual
theorem chunk_expr : (e : Expr) → (p : Place) → ∀ L, e.inline o p = some L → Chunk L
  | .atom a k t, p, L, h => by
    unfold Expr.inline at h
    exact chunk_word h
  | .str a op none cl, p, L, h => by
    unfold Expr.inline at h
    simp only [inLine_cons, inLine_nil] at h
    obtain ⟨_, _, h1, ⟨_, _, h2, rfl, rfl⟩, rfl⟩ := h
    simpa using chunk_append (chunk_word h1) (chunk_word h2)
  | .str a op (some c) cl, p, L, h => by
    unfold Expr.inline at h
    simp only [inLine_cons, inLine_nil] at h
    obtain ⟨_, _, h1, ⟨_, _, h2, ⟨_, _, h3, rfl, rfl⟩, rfl⟩, rfl⟩ := h
    simpa using chunk_append (chunk_word h1) (chunk_append (chunk_word h2) (chunk_word h3))
  | .paren a l e r, p, L, h => by
    unfold Expr.inline at h
    simp only [inLine_cons, inLine_nil] at h
    obtain ⟨_, _, h1, ⟨_, _, h2, ⟨_, _, h3, rfl, rfl⟩, rfl⟩, rfl⟩ := h
    simpa using chunk_append (chunk_word h1) (chunk_append (chunk_expr e _ _ h2) (chunk_word h3))
  | .braced a l es r, p, L, h => by
    rw [Expr.inline.eq_def] at h
    split at h <;> rename_i heq <;> (try cases heq)
    · simp only [inLine_cons, inLine_nil] at h
      obtain ⟨_, _, h1, ⟨_, _, h2, rfl, rfl⟩, rfl⟩ := h
      simpa using chunk_append (chunk_word h1) (chunk_word h2)
    · simp only [inLine_cons, inLine_nil] at h
      obtain ⟨_, _, h1, ⟨_, _, h2, ⟨_, _, h3, ⟨_, _, h4, ⟨_, _, h5, ⟨_, _, h6, ⟨_, _, h7, rfl, rfl⟩, rfl⟩,
        rfl⟩, rfl⟩, rfl⟩, rfl⟩, rfl⟩ := h
      obtain rfl := blank_some h3
      obtain rfl := blank_some h5
      simpa using chunk_append (chunk_word h1) (chunk_blank (chunk_word h2) (chunk_blank (chunk_word h4)
        (chunk_append (chunk_word h6) (chunk_word h7))))
    · cases h
  | .unary a op e, p, L, h => by
    unfold Expr.inline at h
    split at h
    · simp only [inLine_cons, inLine_nil] at h
      obtain ⟨_, _, h1, ⟨_, _, h2, ⟨_, _, h3, rfl, rfl⟩, rfl⟩, rfl⟩ := h
      obtain rfl := blank_some h2
      simpa using chunk_blank (chunk_word h1) (chunk_expr e _ _ h3)
    · simp only [inLine_cons, inLine_nil] at h
      obtain ⟨_, _, h1, ⟨_, _, h2, rfl, rfl⟩, rfl⟩ := h
      simpa using chunk_append (chunk_word h1) (chunk_expr e _ _ h2)
  | .binary a x op y, p, L, h => by
    unfold Expr.inline at h
    split at h
    · simp only [inLine_cons, inLine_nil] at h
      obtain ⟨_, _, h1, ⟨_, _, h2, ⟨_, _, h3, rfl, rfl⟩, rfl⟩, rfl⟩ := h
      simpa using chunk_append (chunk_expr x _ _ h1) (chunk_append (chunk_word h2) (chunk_expr y _ _ h3))
    · simp only [inLine_cons, inLine_nil] at h
      obtain ⟨_, _, h1, ⟨_, _, h2, ⟨_, _, h3, ⟨_, _, h4, ⟨_, _, h5, rfl, rfl⟩, rfl⟩, rfl⟩, rfl⟩, rfl⟩ := h
      obtain rfl := blank_some h2
      obtain rfl := blank_some h4
      simpa using chunk_blank (chunk_expr x _ _ h1) (chunk_blank (chunk_word h3) (chunk_expr y _ _ h5))
  | .sel a k x op y, p, L, h => by
    unfold Expr.inline at h
    simp only [inLine_cons, inLine_nil] at h
    obtain ⟨_, _, h1, ⟨_, _, h2, ⟨_, _, h3, rfl, rfl⟩, rfl⟩, rfl⟩ := h
    simpa using chunk_append (chunk_expr x _ _ h1) (chunk_append (chunk_word h2) (chunk_expr y _ _ h3))
  | .call a k f aa l items r, p, L, h => by
    unfold Expr.inline at h
    simp only [inLine_cons, inLine_nil] at h
    obtain ⟨_, _, h1, ⟨_, _, h2, ⟨_, _, h3, ⟨_, _, h4, rfl, rfl⟩, rfl⟩, rfl⟩, rfl⟩ := h
    cases h4
    simpa using chunk_append (chunk_expr f _ _ h1) (chunk_items items _ _ _ h3 _ _ (chunk_word h2))
  | .func a kw pa l items r b, p, L, h => by
    unfold Expr.inline at h
    simp only [inLine_cons, inLine_nil] at h
    obtain ⟨_, _, h1, ⟨_, _, h2, ⟨_, _, h3, ⟨_, _, h4, ⟨_, _, h5, ⟨_, _, h6, rfl, rfl⟩, rfl⟩, rfl⟩, rfl⟩,
      rfl⟩, rfl⟩ := h
    cases h4
    obtain rfl := blank_some h5
    simpa using chunk_append (chunk_word h1) (chunk_blank (chunk_items items _ _ _ h3 _ (outTok r) (chunk_word h2))
      (chunk_expr b _ _ h6))
  | .ite a kw l c r t, p, L, h => by
    unfold Expr.inline at h
    simp only [inLine_cons, inLine_nil] at h
    obtain ⟨_, _, h1, ⟨_, _, h2, ⟨_, _, h3, ⟨_, _, h4, ⟨_, _, h5, ⟨_, _, h6, ⟨_, _, h7, rfl, rfl⟩, rfl⟩, rfl⟩,
      rfl⟩, rfl⟩, rfl⟩, rfl⟩ := h
    obtain rfl := blank_some h2
    obtain rfl := blank_some h6
    simpa using chunk_blank (chunk_word h1) (chunk_append (chunk_word h3) (chunk_append (chunk_expr c _ _ h4)
      (chunk_blank (chunk_word h5) (chunk_expr t _ _ h7))))
  | .itee a kw l c r t ea el e, p, L, h => by
    unfold Expr.inline at h
    simp only [inLine_cons, inLine_nil] at h
    obtain ⟨_, _, h1, ⟨_, _, h2, ⟨_, _, h3, ⟨_, _, h4, ⟨_, _, h5, ⟨_, _, h6, ⟨_, _, h7, ⟨_, _, h8, ⟨_, _, h9,
      ⟨_, _, h10, ⟨_, _, h11, rfl, rfl⟩, rfl⟩, rfl⟩, rfl⟩, rfl⟩, rfl⟩, rfl⟩, rfl⟩, rfl⟩, rfl⟩, rfl⟩ := h
    obtain rfl := blank_some h2
    obtain rfl := blank_some h6
    obtain rfl := blank_some h8
    obtain rfl := blank_some h10
    simpa using chunk_blank (chunk_word h1) (chunk_append (chunk_word h3) (chunk_append (chunk_expr c _ _ h4)
      (chunk_blank (chunk_word h5) (chunk_blank (chunk_expr t _ _ h7) (chunk_blank (chunk_word h9)
        (chunk_expr e _ _ h11))))))
  | .for_ a kw l v i s r b, p, L, h => by
    unfold Expr.inline at h
    split at h
    · simp only [inLine_cons, inLine_nil] at h
      obtain ⟨_, _, h1, ⟨_, _, h2, ⟨_, _, h3, ⟨_, _, h4, ⟨_, _, h5, ⟨_, _, h6, ⟨_, _, h7, ⟨_, _, h8, ⟨_, _, h9,
        ⟨_, _, h10, ⟨_, _, h11, rfl, rfl⟩, rfl⟩, rfl⟩, rfl⟩, rfl⟩, rfl⟩, rfl⟩, rfl⟩, rfl⟩, rfl⟩, rfl⟩ := h
      obtain rfl := blank_some h2
      obtain rfl := blank_some h5
      obtain rfl := blank_some h7
      obtain rfl := blank_some h10
      simpa using chunk_blank (chunk_word h1) (chunk_append (chunk_word h3) (chunk_blank (chunk_expr v _ _ h4)
        (chunk_blank (chunk_word h6) (chunk_append (chunk_expr s _ _ h8) (chunk_blank (chunk_word h9)
          (chunk_expr b _ _ h11))))))
    · cases h
  | .while_ a kw l c r b, p, L, h => by
    unfold Expr.inline at h
    split at h
    · simp only [inLine_cons, inLine_nil] at h
      obtain ⟨_, _, h1, ⟨_, _, h2, ⟨_, _, h3, ⟨_, _, h4, ⟨_, _, h5, ⟨_, _, h6, ⟨_, _, h7, rfl, rfl⟩, rfl⟩, rfl⟩,
        rfl⟩, rfl⟩, rfl⟩, rfl⟩ := h
      obtain rfl := blank_some h2
      obtain rfl := blank_some h6
      simpa using chunk_blank (chunk_word h1) (chunk_append (chunk_word h3) (chunk_append (chunk_expr c _ _ h4)
        (chunk_blank (chunk_word h5) (chunk_expr b _ _ h7))))
    · cases h
  | .repeat_ a kw b, p, L, h => by
    unfold Expr.inline at h
    split at h
    · simp only [inLine_cons, inLine_nil] at h
      obtain ⟨_, _, h1, ⟨_, _, h2, ⟨_, _, h3, rfl, rfl⟩, rfl⟩, rfl⟩ := h
      obtain rfl := blank_some h2
      simpa using chunk_blank (chunk_word h1) (chunk_expr b _ _ h3)
    · cases h
theorem chunk_items : (xs : Items) → (first omitted : Bool) → ∀ L, xs.inline o first omitted = some L →
    ∀ M t, Chunk M → Chunk (M ++ (L ++ [.tok t]))
  | .nil, first, omitted, L, h, M, t, hm => by
    unfold Items.inline at h
    cases h
    exact chunk_append hm (chunk_tok t)
  | .last x, first, omitted, L, h, M, t, hm => by
    unfold Items.inline at h
    simp only [inLine_cons, inLine_nil] at h
    obtain ⟨_, _, h1, ⟨_, _, h2, rfl, rfl⟩, rfl⟩ := h
    simpa using chunk_gap (t := t) hm (between_some h1) (chunk_arg x _ h2)
  | .cons x s xs, first, omitted, L, h, M, t, hm => by
    unfold Items.inline at h
    simp only [inLine_cons, inLine_nil] at h
    obtain ⟨_, _, h1, ⟨_, _, h2, ⟨_, _, h3, ⟨_, _, h4, rfl, rfl⟩, rfl⟩, rfl⟩, rfl⟩ := h
    cases h3
    simpa using chunk_items xs _ _ _ h4 _ t (chunk_gap (t := outTok s) hm (between_some h1) (chunk_arg x _ h2))
theorem chunk_arg : (x : Arg) → ∀ L, x.inline o = some L → ArgChunk L
  | .hole a, L, h => by
    unfold Arg.inline at h
    cases h
    exact .inl rfl
  | .val a e, L, h => by
    unfold Arg.inline at h
    exact .inr (.inl (chunk_expr e _ _ h))
  | .name a na n q, L, h => by
    unfold Arg.inline at h
    simp only [inLine_cons, inLine_nil] at h
    obtain ⟨u, _, h1, ⟨_, _, h2, ⟨v, _, h3, ⟨_, _, h4, rfl, rfl⟩, rfl⟩, rfl⟩, rfl⟩ := h
    obtain rfl := blank_some h2
    obtain rfl := blank_some h4
    exact .inr (.inr ⟨u ++ ([.blank [32]] ++ v), by simp, by
      simpa using chunk_blank (chunk_expr n _ _ h1) (chunk_word h3)⟩)
  | .named a na n q e, L, h => by
    unfold Arg.inline at h
    simp only [inLine_cons, inLine_nil] at h
    obtain ⟨_, _, h1, ⟨_, _, h2, ⟨_, _, h3, ⟨_, _, h4, ⟨_, _, h5, rfl, rfl⟩, rfl⟩, rfl⟩, rfl⟩, rfl⟩ := h
    obtain rfl := blank_some h2
    obtain rfl := blank_some h4
    refine .inr (.inl ?_)
    simpa using chunk_blank (chunk_expr n _ _ h1) (chunk_blank (chunk_word h3) (chunk_expr e _ _ h5))
  | .pdef a n da q e, L, h => by
    unfold Arg.inline at h
    simp only [inLine_cons, inLine_nil] at h
    obtain ⟨_, _, h1, ⟨_, _, h2, ⟨_, _, h3, ⟨_, _, h4, ⟨_, _, h5, rfl, rfl⟩, rfl⟩, rfl⟩, rfl⟩, rfl⟩ := h
    obtain rfl := blank_some h2
    obtain rfl := blank_some h4
    refine .inr (.inl ?_)
    simpa using chunk_blank (chunk_expr n _ _ h1) (chunk_blank (chunk_word h3) (chunk_expr e _ _ h5))
end

end Verif.Format
