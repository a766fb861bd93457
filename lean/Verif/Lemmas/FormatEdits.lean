import Verif.Lemmas.FormatToks
import Verif.Spec.Tokens

/-!
# Rewritings as changes of the token sequence
-/

namespace Verif.Format
open Verif.Syntax

variable {s : Settings.AssignmentStyle}

theorem Edits.refl : (a : List Tok) → Edits s a a
  | [] => .nil
  | t :: a => .same t (Edits.refl a)

theorem Edits.append {a b c d : List Tok} (h : Edits s a b) (h' : Edits s c d) :
    Edits s (a ++ c) (b ++ d) := by
  induction h with
  | nil => exact h'
  | same t _ ih => exact .same t ih
  | arrow t hs ht _ ih => exact .arrow t hs ht ih
  | equal t hs ht _ ih => exact .equal t hs ht ih
  | braces h1 _ _ ih =>
    simp only [List.append_assoc, List.cons_append]
    exact .braces h1 ih

/-- Without trivia. -/
def toks (ts : List Token) : List Tok := ts.map outTok

theorem toks_append (a b : List Token) : toks (a ++ b) = toks a ++ toks b := List.map_append
theorem toks_cons (t : Token) (b : List Token) : toks (t :: b) = outTok t :: toks b := rfl

theorem Edits.mid {a b : List Tok} {c d : List Tok} (t : Token) (h : Edits s a b)
    (h' : Edits s c d) : Edits s (a ++ outTok t :: c) (b ++ outTok t :: d) :=
  h.append (.same _ h')

theorem edits_wrap {a : List Tok} {e : Expr} (h : Edits s a (toks e.tokens)) :
    Edits s a (toks (wrapE e).tokens) := by
  have := Edits.braces h (.nil (style := s))
  simp only [List.append_nil] at this
  have h2 : toks (wrapE e).tokens =
      ⟨.lCurly, [123]⟩ :: (toks e.tokens ++ [⟨.rCurly, [125]⟩]) := by
    simp [wrapE, Expr.tokens, Exprs.tokens, toks, outTok]
  rw [h2]
  exact this

theorem edits_body {as force multi : Bool} {a : List Tok} {e : Expr}
    (h : Edits s a (toks e.tokens)) : Edits s a (toks (newBody as force multi e).tokens) := by
  unfold newBody
  split
  · exact h
  · split
    · exact edits_wrap h
    · exact h

theorem edits_op {o : Opts} {eq : Bool} {p : Token} {a b : List Tok} (h : Edits o.style a b) :
    Edits o.style (outTok p :: a) (outTok (newOp o.style eq p) :: b) := by
  unfold newOp
  split
  · rename_i hk hs
    exact .arrow _ hs hk h
  · rename_i hk hs
    split
    · exact .equal _ hs hk h
    · exact .same _ h
  · exact .same _ h

theorem unless_elim {b : Bool} {e e' : Expr} {P : Prop} (h : Unless b e e' P) :
    e' = e ∨ P := by
  unfold Unless at h
  split at h
  · exact .inl h
  · exact .inr h

mutual
theorem rew_edits (o : Opts) (cx : Cx) : (e e' : Expr) → Rew o cx e e' →
    Edits o.style (toks e.tokens) (toks e'.tokens)
  | .atom _ _ _, _, h => by rw [Rew] at h; subst h; exact .refl _
  | .str _ _ _ _, _, h => by rw [Rew] at h; subst h; exact .refl _
  | .paren _ _ e _, _, h => by
    rw [Rew] at h
    rcases unless_elim h with rfl | ⟨x, hx, rfl⟩
    · exact .refl _
    · simp only [Expr.tokens, toks_cons, toks_append]
      exact .same _ ((rew_edits o _ e x hx).mid _ .nil)
  | .braced _ _ es _, _, h => by
    rw [Rew] at h
    rcases unless_elim h with rfl | ⟨x, hx, rfl⟩
    · exact .refl _
    · simp only [Expr.tokens, toks_cons, toks_append]
      exact .same _ ((rews_edits o _ _ es x hx).mid _ .nil)
  | .unary _ _ e, _, h => by
    rw [Rew] at h
    rcases unless_elim h with rfl | ⟨x, hx, rfl⟩
    · exact .refl _
    · simp only [Expr.tokens, toks_cons, toks_append]
      exact .same _ (rew_edits o _ e x hx)
  | .binary _ x _ y, _, h => by
    rw [Rew] at h
    rcases unless_elim h with rfl | ⟨x', y', hx, hy, rfl⟩
    · exact .refl _
    · simp only [Expr.tokens, toks_cons, toks_append]
      exact (rew_edits o _ x x' hx).append (edits_op (rew_edits o _ y y' hy))
  | .sel _ _ x _ y, _, h => by
    rw [Rew] at h
    rcases unless_elim h with rfl | ⟨x', y', hx, hy, rfl⟩
    · exact .refl _
    · simp only [Expr.tokens, toks_cons, toks_append]
      exact (rew_edits o _ x x' hx).mid _ (rew_edits o _ y y' hy)
  | .call _ _ f _ _ items _, _, h => by
    rw [Rew] at h
    rcases unless_elim h with rfl | ⟨f', items', hf, hi, rfl⟩
    · exact .refl _
    · simp only [Expr.tokens, toks_cons, toks_append]
      have hi : Edits o.style (toks items.tokens) (toks items'.tokens) := by
        rcases hi with hi | ⟨-, rfl⟩
        · exact rewItems_edits o _ _ items items' hi
        · exact .refl _
      exact (rew_edits o _ f f' hf).mid _ (hi.mid _ .nil)
  | .func _ _ _ _ items _ b, _, h => by
    rw [Rew] at h
    rcases unless_elim h with rfl | ⟨items', b', m, hi, hb, rfl⟩
    · exact .refl _
    · simp only [Expr.tokens, toks_cons, toks_append]
      exact .same _ (.same _ ((rewItems_edits o _ _ items items' hi).mid _
        (edits_body (rew_edits o _ b b' hb))))
  | .ite _ _ _ c _ t, _, h => by
    rw [Rew] at h
    rcases unless_elim h with rfl | ⟨c', t', m, hc, ht, rfl⟩
    · exact .refl _
    · simp only [Expr.tokens, toks_cons, toks_append]
      exact .same _ (.same _ ((rew_edits o _ c c' hc).mid _ (edits_body (rew_edits o _ t t' ht))))
  | .itee _ _ _ c _ t _ _ e, _, h => by
    rw [Rew] at h
    rcases unless_elim h with rfl | ⟨c', t', x, m, hc, ht, hx, rfl⟩
    · exact .refl _
    · simp only [Expr.tokens, toks_cons, toks_append]
      exact .same _ (.same _ ((rew_edits o _ c c' hc).mid _
        ((edits_body (rew_edits o _ t t' ht)).mid _ (edits_body (rew_edits o _ e x hx)))))
  | .for_ _ _ _ v _ q _ b, _, h => by
    rw [Rew] at h
    rcases unless_elim h with rfl | ⟨v', q', b', hv, hq, hb, rfl⟩
    · exact .refl _
    · simp only [Expr.tokens, toks_cons, toks_append]
      exact .same _ (.same _ ((rew_edits o _ v v' hv).mid _ ((rew_edits o _ q q' hq).mid _
        (edits_body (rew_edits o _ b b' hb)))))
  | .while_ _ _ _ c _ b, _, h => by
    rw [Rew] at h
    rcases unless_elim h with rfl | ⟨c', b', hc, hb, rfl⟩
    · exact .refl _
    · simp only [Expr.tokens, toks_cons, toks_append]
      exact .same _ (.same _ ((rew_edits o _ c c' hc).mid _ (edits_body (rew_edits o _ b b' hb))))
  | .repeat_ _ _ b, _, h => by
    rw [Rew] at h
    rcases unless_elim h with rfl | ⟨b', hb, rfl⟩
    · exact .refl _
    · simp only [Expr.tokens, toks_cons, toks_append]
      exact .same _ (edits_body (rew_edits o _ b b' hb))
termination_by structural x => x
theorem rews_edits (o : Opts) (cx : Cx) (top : Bool) : (es es' : Exprs) → Rews o cx top es es' →
    Edits o.style (toks es.tokens) (toks es'.tokens)
  | .nil, _, h => by rw [Rews] at h; subst h; exact .refl _
  | .cons e es, _, h => by
    rw [Rews] at h
    obtain ⟨x, xs, hx, hxs, rfl⟩ := h
    simp only [Exprs.tokens, toks_append]
    exact (rew_edits o _ e x hx).append (rews_edits o _ _ es xs hxs)
termination_by structural x => x
theorem rewItems_edits (o : Opts) (cx : Cx) (dir : Bool) : (xs xs' : Items) →
    RewItems o cx dir xs xs' → Edits o.style (toks xs.tokens) (toks xs'.tokens)
  | .nil, _, h => by rw [RewItems] at h; subst h; exact .refl _
  | .last x, _, h => by
    rw [RewItems] at h
    obtain ⟨x', hx, rfl⟩ := h
    exact rewArg_edits o _ _ x x' hx
  | .cons x _ xs, _, h => by
    rw [RewItems] at h
    obtain ⟨x', xs', hx, hxs, rfl⟩ := h
    simp only [Items.tokens, toks_append, toks_cons]
    exact (rewArg_edits o _ _ x x' hx).mid _ (rewItems_edits o _ _ xs xs' hxs)
termination_by structural x => x
theorem rewArg_edits (o : Opts) (cx : Cx) (dir : Bool) : (x x' : Arg) →
    RewArg o cx dir x x' → Edits o.style (toks x.tokens) (toks x'.tokens)
  | .hole _, _, h => by rw [RewArg] at h; subst h; exact .refl _
  | .val _ e, _, h => by
    rw [RewArg] at h
    rcases h with ⟨-, rfl⟩ | ⟨e', he, rfl⟩
    · exact .refl _
    · exact rew_edits o _ e e' he
  | .name _ _ n _, _, h => by
    rw [RewArg] at h
    rcases h with ⟨-, rfl⟩ | ⟨n', hn, rfl⟩
    · exact .refl _
    · simp only [Arg.tokens, toks_append, toks_cons]
      exact (rew_edits o _ n n' hn).mid _ .nil
  | .named _ _ n _ e, _, h => by
    rw [RewArg] at h
    rcases h with ⟨-, rfl⟩ | ⟨n', e', hn, he, rfl⟩
    · exact .refl _
    · simp only [Arg.tokens, toks_append, toks_cons]
      exact (rew_edits o _ n n' hn).mid _ (rew_edits o _ e e' he)
  | .pdef _ n _ _ e, _, h => by
    rw [RewArg] at h
    rcases h with ⟨-, rfl⟩ | ⟨n', e', hn, he, rfl⟩
    · exact .refl _
    · simp only [Arg.tokens, toks_append, toks_cons]
      exact (rew_edits o _ n n' hn).mid _ (rew_edits o _ e e' he)
termination_by structural x => x
end

/-! ## Consequences -/

/-- Braces. -/
def isBrace (t : Tok) : Bool := t.kind == .lCurly || t.kind == .rCurly

/-- `=` and `<-` identified. -/
def sameOp (t : Tok) : Tok :=
  if t.kind = .equal ∨ t.kind = .assign then ⟨.assign, [60, 45]⟩ else t

theorem edits_erase {a b : List Tok} (h : Edits s a b) :
    (a.filter (fun t => !isBrace t)).map sameOp = (b.filter (fun t => !isBrace t)).map sameOp := by
  induction h with
  | nil => rfl
  | same t _ ih =>
    simp only [List.filter_cons]
    split
    · rw [List.map_cons, List.map_cons, ih]
    · exact ih
  | arrow t _ hk _ ih =>
    have h1 : isBrace t = false := by simp [isBrace, hk]
    have h2 : isBrace ⟨.assign, [60, 45]⟩ = false := rfl
    simp only [List.filter_cons, h1, h2, Bool.not_false, if_true, List.map_cons, ih]
    simp [sameOp, hk]
  | equal t _ hk _ ih =>
    have h1 : isBrace t = false := by simp [isBrace, hk]
    have h2 : isBrace ⟨.equal, [61]⟩ = false := rfl
    simp only [List.filter_cons, h1, h2, Bool.not_false, if_true, List.map_cons, ih]
    simp [sameOp, hk]
  | braces _ _ ih1 ih2 =>
    simp [List.filter_cons, isBrace] at ih1 ih2 ⊢
    rw [ih1, ih2]

theorem edits_sublist {a b : List Tok} (h : Edits s a b) (hs : s = .preserve) :
    a.Sublist b := by
  induction h with
  | nil => exact .slnil
  | same t _ ih => exact ih.cons_cons t
  | arrow t hs' => rw [hs] at hs'; cases hs'
  | equal t hs' => rw [hs] at hs'; cases hs'
  | braces _ _ ih1 ih2 => exact .cons _ (ih1.append (.cons _ ih2))

end Verif.Format
