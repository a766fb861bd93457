import Verif.Lemmas.Prints
import Verif.Lemmas.FormatReads
import Verif.Lemmas.FormatBecomes
import Verif.Spec.Calm
import Verif.Spec.Persistent

/-!
# Programs without comments
-/

namespace Verif.Format
open Verif.Syntax

/-- No comments around the token. -/
def Bland (t : Token) : Prop := hasComment t.leading = false ∧ hasComment t.trailing = false

mutual
/-- No comments, no function that is listed in the settings. -/
def Expr.Simple (o : Opts) : Expr → Prop
  | .atom a _ t => a = {} ∧ Bland t ∧ t.kind ≠ .stringContent
  | .str a p c l => a = {} ∧ Bland p ∧ (∀ t ∈ c, Bland t) ∧ Bland l
  | .paren a l e r => a = {} ∧ Bland l ∧ e.Simple o ∧ Bland r
  | .braced a l es r => a = {} ∧ Bland l ∧ es.Simple o ∧ Bland r
  | .unary a p e => a = {} ∧ Bland p ∧ e.Simple o
  | .binary a x p y => a = {} ∧ x.Simple o ∧ Bland p ∧ y.Simple o
  | .sel a k x p y => a = {} ∧ x.Simple o ∧ Bland p ∧ y.Simple o ∧ (k = .namespace → y.isTerminal = true)
  | .call a _ f aa l items r => a = {} ∧ aa = {} ∧ listed o f = false ∧ f.Simple o ∧ Bland l ∧
      items.Simple o ∧ Bland r
  | .func a kw pa l items r b => a = {} ∧ pa = {} ∧ Bland kw ∧ Bland l ∧ items.Simple o ∧ Bland r ∧
      b.Simple o
  | .ite a kw l c r t => a = {} ∧ Bland kw ∧ Bland l ∧ c.Simple o ∧ Bland r ∧ t.Simple o
  | .itee a kw l c r t ea el e => a = {} ∧ ea = {} ∧ Bland kw ∧ Bland l ∧ c.Simple o ∧ Bland r ∧
      t.Simple o ∧ Bland el ∧ e.Simple o
  | .for_ a kw l v i s r b => a = {} ∧ Bland kw ∧ Bland l ∧ v.Simple o ∧ Bland i ∧ s.Simple o ∧
      Bland r ∧ b.Simple o
  | .while_ a kw l c r b => a = {} ∧ Bland kw ∧ Bland l ∧ c.Simple o ∧ Bland r ∧ b.Simple o
  | .repeat_ a kw b => a = {} ∧ Bland kw ∧ b.Simple o
def Exprs.Simple (o : Opts) : Exprs → Prop
  | .nil => True
  | .cons e es => e.Simple o ∧ es.Simple o
def Items.Simple (o : Opts) : Items → Prop
  | .nil => True
  | .last x => x.Simple o
  | .cons x s xs => x.Simple o ∧ Bland s ∧ xs.Simple o
def Arg.Simple (o : Opts) : Arg → Prop
  | .hole a => a = {}
  | .val a e => a = {} ∧ e.Simple o
  | .name a na n q => a = {} ∧ na = {} ∧ n.Simple o ∧ Bland q
  | .named a na n q e => a = {} ∧ na = {} ∧ n.Simple o ∧ Bland q ∧ e.Simple o
  | .pdef a n da q e => a = {} ∧ n.Simple o ∧ da = {} ∧ Bland q ∧ e.Simple o
end

variable {o : Opts}

theorem Expr.Simple.ann {e : Expr} (h : e.Simple o) : e.ann = {} := by
  cases e <;> exact h.1

theorem Arg.Simple.ann {x : Arg} (h : x.Simple o) : x.ann = {} := by
  cases x with
  | hole a => exact h
  | _ => exact h.1

theorem Ann.eq_nil {a : Ann} (h : a.all = []) : a = {} := by
  obtain ⟨l, d, t⟩ := a
  simp [Ann.all] at h
  simp [h.1, h.2.1, h.2.2]

mutual
theorem simple_expr : (e : Expr) → e.comments = [] → e.ordinary o = true → e.calm = true →
    (∀ t ∈ e.tokens, Bland t) → e.Simple o
  | .atom a k t, hc, ho, hk, ht => ⟨Ann.eq_nil hc, ht t (by simp [Expr.tokens]), by simpa [Expr.calm] using hk⟩
  | .str a p c l, hc, ho, hk, ht =>
    ⟨Ann.eq_nil hc, ht _ (by simp [Expr.tokens]),
      fun t h => ht t (by cases h; simp [Expr.tokens]), ht _ (by simp [Expr.tokens])⟩
  | .paren a l e r, hc, ho, hk, ht => by
    simp only [Expr.comments, List.append_eq_nil_iff, Expr.ordinary, Expr.calm, Bool.and_eq_true, Expr.tokens,
      List.mem_cons, List.mem_append] at hc ho hk ht
    exact ⟨Ann.eq_nil hc.1, ht _ (by simp), simple_expr e hc.2 ho.2 (by grind) (fun t h => ht t (by simp [h])),
      ht _ (by simp)⟩
  | .braced a l es r, hc, ho, hk, ht => by
    simp only [Expr.comments, List.append_eq_nil_iff, Expr.ordinary, Expr.calm, Bool.and_eq_true, Expr.tokens,
      List.mem_cons, List.mem_append] at hc ho hk ht
    exact ⟨Ann.eq_nil hc.1, ht _ (by simp), simple_exprs es hc.2 ho.2 (by grind) (fun t h => ht t (by simp [h])),
      ht _ (by simp)⟩
  | .unary a p e, hc, ho, hk, ht => by
    simp only [Expr.comments, List.append_eq_nil_iff, Expr.ordinary, Expr.calm, Bool.and_eq_true, Expr.tokens,
      List.mem_cons, List.mem_append] at hc ho hk ht
    exact ⟨Ann.eq_nil hc.1, ht _ (by simp), simple_expr e hc.2 ho.2 (by grind) (fun t h => ht t (by simp [h]))⟩
  | .binary a x p y, hc, ho, hk, ht => by
    simp only [Expr.comments, List.append_eq_nil_iff, Expr.ordinary, Expr.calm, Bool.and_eq_true, Expr.tokens,
      List.mem_cons, List.mem_append] at hc ho hk ht
    exact ⟨Ann.eq_nil hc.1.1, simple_expr x hc.1.2 ho.1.2 (by grind) (fun t h => ht t (by simp [h])),
      ht _ (by simp), simple_expr y hc.2 ho.2 (by grind) (fun t h => ht t (by simp [h]))⟩
  | .sel a k x p y, hc, ho, hk, ht => by
    simp only [Expr.comments, List.append_eq_nil_iff, Expr.ordinary, Expr.calm, Bool.and_eq_true, Expr.tokens,
      List.mem_cons, List.mem_append, Bool.or_eq_true, beq_iff_eq] at hc ho hk ht
    exact ⟨Ann.eq_nil hc.1.1, simple_expr x hc.1.2 ho.1.2 (by grind) (fun t h => ht t (by simp [h])),
      ht _ (by simp), simple_expr y hc.2 ho.2 (by grind) (fun t h => ht t (by simp [h])),
      (fun hn => by
        rcases hk.1.1.2 with h | h
        · rw [hn] at h; cases h
        · exact h.2)⟩
  | .call a k f aa l items r, hc, ho, hk, ht => by
    simp only [Expr.comments, List.append_eq_nil_iff, Expr.ordinary, Expr.calm, Bool.and_eq_true, Expr.tokens,
      List.mem_cons, List.mem_append, Bool.not_eq_true'] at hc ho hk ht
    exact ⟨Ann.eq_nil hc.1.1.1, Ann.eq_nil hc.1.2, ho.1.1.2,
      simple_expr f hc.1.1.2 ho.1.2 (by grind) (fun t h => ht t (by simp [h])),
      ht _ (by simp), simple_items items hc.2 ho.2 (by grind) (fun t h => ht t (by simp [h])), ht _ (by simp)⟩
  | .func a kw pa l items r b, hc, ho, hk, ht => by
    simp only [Expr.comments, List.append_eq_nil_iff, Expr.ordinary, Expr.calm, Bool.and_eq_true, Expr.tokens,
      List.mem_cons, List.mem_append] at hc ho hk ht
    exact ⟨Ann.eq_nil hc.1.1.1, Ann.eq_nil hc.1.1.2, ht _ (by simp), ht _ (by simp),
      simple_items items hc.1.2 ho.1.2 (by grind) (fun t h => ht t (by simp [h])), ht _ (by simp),
      simple_expr b hc.2 ho.2 (by grind) (fun t h => ht t (by simp [h]))⟩
  | .ite a kw l c r t, hc, ho, hk, ht => by
    simp only [Expr.comments, List.append_eq_nil_iff, Expr.ordinary, Expr.calm, Bool.and_eq_true, Expr.tokens,
      List.mem_cons, List.mem_append] at hc ho hk ht
    exact ⟨Ann.eq_nil hc.1.1, ht _ (by simp), ht _ (by simp),
      simple_expr c hc.1.2 ho.1.2 (by grind) (fun t h => ht t (by simp [h])), ht _ (by simp),
      simple_expr t hc.2 ho.2 (by grind) (fun t h => ht t (by simp [h]))⟩
  | .itee a kw l c r t ea el e, hc, ho, hk, ht => by
    simp only [Expr.comments, List.append_eq_nil_iff, Expr.ordinary, Expr.calm, Bool.and_eq_true, Expr.tokens,
      List.mem_cons, List.mem_append] at hc ho hk ht
    exact ⟨Ann.eq_nil hc.1.1.1.1, Ann.eq_nil hc.1.2, ht _ (by simp), ht _ (by simp),
      simple_expr c hc.1.1.1.2 ho.1.1.2 (by grind) (fun t h => ht t (by simp [h])), ht _ (by simp),
      simple_expr t hc.1.1.2 ho.1.2 (by grind) (fun t h => ht t (by simp [h])), ht _ (by simp),
      simple_expr e hc.2 ho.2 (by grind) (fun t h => ht t (by simp [h]))⟩
  | .for_ a kw l v i s r b, hc, ho, hk, ht => by
    simp only [Expr.comments, List.append_eq_nil_iff, Expr.ordinary, Expr.calm, Bool.and_eq_true, Expr.tokens,
      List.mem_cons, List.mem_append] at hc ho hk ht
    exact ⟨Ann.eq_nil hc.1.1.1, ht _ (by simp), ht _ (by simp),
      simple_expr v hc.1.1.2 ho.1.1.2 (by grind) (fun t h => ht t (by simp [h])), ht _ (by simp),
      simple_expr s hc.1.2 ho.1.2 (by grind) (fun t h => ht t (by simp [h])), ht _ (by simp),
      simple_expr b hc.2 ho.2 (by grind) (fun t h => ht t (by simp [h]))⟩
  | .while_ a kw l c r b, hc, ho, hk, ht => by
    simp only [Expr.comments, List.append_eq_nil_iff, Expr.ordinary, Expr.calm, Bool.and_eq_true, Expr.tokens,
      List.mem_cons, List.mem_append] at hc ho hk ht
    exact ⟨Ann.eq_nil hc.1.1, ht _ (by simp), ht _ (by simp),
      simple_expr c hc.1.2 ho.1.2 (by grind) (fun t h => ht t (by simp [h])), ht _ (by simp),
      simple_expr b hc.2 ho.2 (by grind) (fun t h => ht t (by simp [h]))⟩
  | .repeat_ a kw b, hc, ho, hk, ht => by
    simp only [Expr.comments, List.append_eq_nil_iff, Expr.ordinary, Expr.calm, Bool.and_eq_true, Expr.tokens,
      List.mem_cons, List.mem_append] at hc ho hk ht
    exact ⟨Ann.eq_nil hc.1, ht _ (by simp), simple_expr b hc.2 ho.2 (by grind) (fun t h => ht t (by simp [h]))⟩
theorem simple_exprs : (es : Exprs) → es.comments = [] → es.ordinary o = true → es.calm = true →
    (∀ t ∈ es.tokens, Bland t) → es.Simple o
  | .nil, _, _, _, _ => trivial
  | .cons e es, hc, ho, hk, ht => by
    simp only [Exprs.comments, List.append_eq_nil_iff, Exprs.ordinary, Exprs.calm, Bool.and_eq_true, Exprs.tokens,
      List.mem_append] at hc ho hk ht
    exact ⟨simple_expr e hc.1 ho.1 (by grind) (fun t h => ht t (by simp [h])),
      simple_exprs es hc.2 ho.2 (by grind) (fun t h => ht t (by simp [h]))⟩
theorem simple_items : (xs : Items) → xs.comments = [] → xs.ordinary o = true → xs.calm = true →
    (∀ t ∈ xs.tokens, Bland t) → xs.Simple o
  | .nil, _, _, _, _ => trivial
  | .last x, hc, ho, hk, ht => simple_arg x hc ho hk ht
  | .cons x s xs, hc, ho, hk, ht => by
    simp only [Items.comments, List.append_eq_nil_iff, Items.ordinary, Items.calm, Bool.and_eq_true, Items.tokens,
      List.mem_append, List.mem_cons] at hc ho hk ht
    exact ⟨simple_arg x hc.1 ho.1 (by grind) (fun t h => ht t (by simp [h])), ht _ (by simp),
      simple_items xs hc.2 ho.2 (by grind) (fun t h => ht t (by simp [h]))⟩
theorem simple_arg : (x : Arg) → x.comments = [] → x.ordinary o = true → x.calm = true →
    (∀ t ∈ x.tokens, Bland t) → x.Simple o
  | .hole a, hc, _, _, _ => Ann.eq_nil hc
  | .val a e, hc, ho, hk, ht => by
    simp only [Arg.comments, List.append_eq_nil_iff, Arg.ordinary, Arg.calm, Bool.and_eq_true, Arg.tokens,
      List.mem_append, List.mem_cons] at hc ho hk ht
    exact ⟨Ann.eq_nil hc.1, simple_expr e hc.2 ho.2 (by grind) ht⟩
  | .name a na n q, hc, ho, hk, ht => by
    simp only [Arg.comments, List.append_eq_nil_iff, Arg.ordinary, Arg.calm, Bool.and_eq_true, Arg.tokens,
      List.mem_append, List.mem_cons] at hc ho hk ht
    exact ⟨Ann.eq_nil hc.1.1, Ann.eq_nil hc.1.2,
      simple_expr n hc.2 ho.2 (by grind) (fun t h => ht t (by simp [h])), ht _ (by simp)⟩
  | .named a na n q e, hc, ho, hk, ht => by
    simp only [Arg.comments, List.append_eq_nil_iff, Arg.ordinary, Arg.calm, Bool.and_eq_true, Arg.tokens,
      List.mem_append, List.mem_cons] at hc ho hk ht
    exact ⟨Ann.eq_nil hc.1.1.1, Ann.eq_nil hc.1.1.2,
      simple_expr n hc.1.2 ho.1.2 (by grind) (fun t h => ht t (by simp [h])), ht _ (by simp),
      simple_expr e hc.2 ho.2 (by grind) (fun t h => ht t (by simp [h]))⟩
  | .pdef a n da q e, hc, ho, hk, ht => by
    simp only [Arg.comments, List.append_eq_nil_iff, Arg.ordinary, Arg.calm, Bool.and_eq_true, Arg.tokens,
      List.mem_append, List.mem_cons] at hc ho hk ht
    exact ⟨Ann.eq_nil hc.1.1.1, simple_expr n hc.1.1.2 ho.1.2 (by grind) (fun t h => ht t (by simp [h])),
      Ann.eq_nil hc.1.2, ht _ (by simp), simple_expr e hc.2 ho.2 (by grind) (fun t h => ht t (by simp [h]))⟩
end

theorem Expr.Simple.tail : (e : Expr) → e.Simple o → tailNl e = false
  | .atom .., h | .str .., h | .paren .., h | .call .., h | .for_ .., h | .while_ .., h
  | .repeat_ .., h => by
    have := h.1
    subst this
    rfl
  | .braced .., _ => rfl
  | .unary a p e, h => by
    have := h.1
    subst this
    simp [tailNl, Expr.Simple.tail e h.2.2, h.2.2.ann, Ann.any]
  | .binary a x p y, h => by
    have := h.1
    subst this
    simp [tailNl, Expr.Simple.tail y h.2.2.2]
  | .sel a k x p y, h => by
    have := h.1
    subst this
    simp [tailNl, Expr.Simple.tail y h.2.2.2.1]
  | .func a kw pa l items r b, h => by
    have := h.1
    subst this
    simp [tailNl, Expr.Simple.tail b h.2.2.2.2.2.2]
  | .ite a kw l c r t, h => by
    have := h.1
    subst this
    simp [tailNl, Expr.Simple.tail t h.2.2.2.2.2]
  | .itee a kw l c r t ea el e, h => by
    obtain ⟨rfl, rfl, h0, h1, h2, h3, h4, h5, h6⟩ := h
    simp [tailNl, Expr.Simple.tail e h6]

theorem ordinary_nil : Ann.ordinary o {} = true := rfl

mutual
theorem Expr.Simple.ok : (e : Expr) → e.Simple o →
    e.ordinary o = true ∧ e.calm = true ∧ (∀ t ∈ e.tokens, Bland t) ∧ e.comments = []
  | .atom a k t, h => by
    obtain ⟨rfl, h, hk⟩ := h
    exact ⟨rfl, by simpa [Expr.calm] using hk, by simpa [Expr.tokens] using h, rfl⟩
  | .str a p c l, h => by
    obtain ⟨rfl, h1, h2, h3⟩ := h
    refine ⟨rfl, rfl, ?_, rfl⟩
    intro t ht
    simp [Expr.tokens] at ht
    rcases ht with rfl | ht | rfl
    · exact h1
    · exact h2 t ht
    · exact h3
  | .paren a l e r, h => by
    obtain ⟨rfl, h1, h2, h3⟩ := h
    obtain ⟨e1, e2, e3, e4⟩ := Expr.Simple.ok e h2
    refine ⟨by simp [Expr.ordinary, ordinary_nil, e1], by simpa [Expr.calm] using e2, ?_,
      by simp [Expr.comments, Ann.all, e4]⟩
    simp only [Expr.tokens]; grind
  | .braced a l es r, h => by
    obtain ⟨rfl, h1, h2, h3⟩ := h
    obtain ⟨e1, e2, e3, e4⟩ := Exprs.Simple.ok es h2
    refine ⟨by simp [Expr.ordinary, ordinary_nil, e1], by simpa [Expr.calm] using e2, ?_,
      by simp [Expr.comments, Ann.all, e4]⟩
    simp only [Expr.tokens]; grind
  | .unary a p e, h => by
    obtain ⟨rfl, h1, h2⟩ := h
    obtain ⟨e1, e2, e3, e4⟩ := Expr.Simple.ok e h2
    refine ⟨by simp [Expr.ordinary, ordinary_nil, e1], by simp [Expr.calm, e2], ?_,
      by simp [Expr.comments, Ann.all, e4]⟩
    simp only [Expr.tokens]; grind
  | .binary a x p y, h => by
    obtain ⟨rfl, h1, h2, h3⟩ := h
    obtain ⟨e1, e2, e3, e4⟩ := Expr.Simple.ok x h1
    obtain ⟨f1, f2, f3, f4⟩ := Expr.Simple.ok y h3
    refine ⟨by simp [Expr.ordinary, ordinary_nil, e1, f1], by simp [Expr.calm, e2, f2, Expr.Simple.tail _ h1], ?_,
      by simp [Expr.comments, Ann.all, e4, f4]⟩
    simp only [Expr.tokens]; grind
  | .sel a k x p y, h => by
    obtain ⟨rfl, h1, h2, h3, h4⟩ := h
    obtain ⟨e1, e2, e3, e4⟩ := Expr.Simple.ok x h1
    obtain ⟨f1, f2, f3, f4⟩ := Expr.Simple.ok y h3
    have hk : (k == .extract || y.ann.leading.isEmpty && y.isTerminal) = true := by
      cases k
      · rfl
      · rw [h3.ann, h4 rfl]; rfl
    refine ⟨by simp [Expr.ordinary, ordinary_nil, e1, f1], by simp [Expr.calm, e2, f2, hk, Expr.Simple.tail _ h1], ?_,
      by simp [Expr.comments, Ann.all, e4, f4]⟩
    simp only [Expr.tokens]; grind
  | .call a k f aa l items r, h => by
    obtain ⟨rfl, rfl, h0, h1, h2, h3, h4⟩ := h
    obtain ⟨e1, e2, e3, e4⟩ := Expr.Simple.ok f h1
    obtain ⟨f1, f2, f3, f4⟩ := Items.Simple.ok items h3
    refine ⟨by simp [Expr.ordinary, ordinary_nil, e1, f1, h0], by simp [Expr.calm, e2, f2, Expr.Simple.tail _ h1], ?_,
      by simp [Expr.comments, Ann.all, e4, f4]⟩
    simp only [Expr.tokens]; grind
  | .func a kw pa l items r b, h => by
    obtain ⟨rfl, rfl, h0, h1, h2, h3, h4⟩ := h
    obtain ⟨e1, e2, e3, e4⟩ := Items.Simple.ok items h2
    obtain ⟨f1, f2, f3, f4⟩ := Expr.Simple.ok b h4
    refine ⟨by simp [Expr.ordinary, ordinary_nil, e1, f1], by simp [Expr.calm, e2, f2], ?_,
      by simp [Expr.comments, Ann.all, e4, f4]⟩
    simp only [Expr.tokens]; grind
  | .ite a kw l c r t, h => by
    obtain ⟨rfl, h0, h1, h2, h3, h4⟩ := h
    obtain ⟨e1, e2, e3, e4⟩ := Expr.Simple.ok c h2
    obtain ⟨f1, f2, f3, f4⟩ := Expr.Simple.ok t h4
    refine ⟨by simp [Expr.ordinary, ordinary_nil, e1, f1], by simp [Expr.calm, e2, f2], ?_,
      by simp [Expr.comments, Ann.all, e4, f4]⟩
    simp only [Expr.tokens]; grind
  | .itee a kw l c r t ea el e, h => by
    obtain ⟨rfl, rfl, h0, h1, h2, h3, h4, h5, h6⟩ := h
    obtain ⟨e1, e2, e3, e4⟩ := Expr.Simple.ok c h2
    obtain ⟨f1, f2, f3, f4⟩ := Expr.Simple.ok t h4
    obtain ⟨g1, g2, g3, g4⟩ := Expr.Simple.ok e h6
    refine ⟨by simp [Expr.ordinary, ordinary_nil, e1, f1, g1], by simp [Expr.calm, e2, f2, g2, Expr.Simple.tail _ h4], ?_,
      by simp [Expr.comments, Ann.all, e4, f4, g4]⟩
    simp only [Expr.tokens]; grind
  | .for_ a kw l v i s r b, h => by
    obtain ⟨rfl, h0, h1, h2, h3, h4, h5, h6⟩ := h
    obtain ⟨e1, e2, e3, e4⟩ := Expr.Simple.ok v h2
    obtain ⟨f1, f2, f3, f4⟩ := Expr.Simple.ok s h4
    obtain ⟨g1, g2, g3, g4⟩ := Expr.Simple.ok b h6
    refine ⟨by simp [Expr.ordinary, ordinary_nil, e1, f1, g1], by simp [Expr.calm, e2, f2, g2], ?_,
      by simp [Expr.comments, Ann.all, e4, f4, g4]⟩
    simp only [Expr.tokens]; grind
  | .while_ a kw l c r b, h => by
    obtain ⟨rfl, h0, h1, h2, h3, h4⟩ := h
    obtain ⟨e1, e2, e3, e4⟩ := Expr.Simple.ok c h2
    obtain ⟨f1, f2, f3, f4⟩ := Expr.Simple.ok b h4
    refine ⟨by simp [Expr.ordinary, ordinary_nil, e1, f1], by simp [Expr.calm, e2, f2], ?_,
      by simp [Expr.comments, Ann.all, e4, f4]⟩
    simp only [Expr.tokens]; grind
  | .repeat_ a kw b, h => by
    obtain ⟨rfl, h0, h1⟩ := h
    obtain ⟨e1, e2, e3, e4⟩ := Expr.Simple.ok b h1
    refine ⟨by simp [Expr.ordinary, ordinary_nil, e1], by simp [Expr.calm, e2], ?_,
      by simp [Expr.comments, Ann.all, e4]⟩
    simp only [Expr.tokens]; grind
theorem Exprs.Simple.ok : (es : Exprs) → es.Simple o →
    es.ordinary o = true ∧ es.calm = true ∧ (∀ t ∈ es.tokens, Bland t) ∧ es.comments = []
  | .nil, _ => ⟨rfl, rfl, by simp [Exprs.tokens], rfl⟩
  | .cons e es, h => by
    obtain ⟨e1, e2, e3, e4⟩ := Expr.Simple.ok e h.1
    obtain ⟨f1, f2, f3, f4⟩ := Exprs.Simple.ok es h.2
    refine ⟨by simp [Exprs.ordinary, e1, f1], by simp [Exprs.calm, e2, f2], ?_,
      by simp [Exprs.comments, e4, f4]⟩
    simp only [Exprs.tokens]; grind
theorem Items.Simple.ok : (xs : Items) → xs.Simple o →
    xs.ordinary o = true ∧ xs.calm = true ∧ (∀ t ∈ xs.tokens, Bland t) ∧ xs.comments = []
  | .nil, _ => ⟨rfl, rfl, by simp [Items.tokens], rfl⟩
  | .last x, h => by
    obtain ⟨e1, e2, e3, e4⟩ := Arg.Simple.ok x h
    exact ⟨e1, e2, e3, e4⟩
  | .cons x s xs, h => by
    obtain ⟨e1, e2, e3, e4⟩ := Arg.Simple.ok x h.1
    obtain ⟨f1, f2, f3, f4⟩ := Items.Simple.ok xs h.2.2
    have h2 := h.2.1
    refine ⟨by simp [Items.ordinary, e1, f1], by simp [Items.calm, e2, f2], ?_,
      by simp [Items.comments, e4, f4]⟩
    simp only [Items.tokens]; grind
theorem Arg.Simple.ok : (x : Arg) → x.Simple o →
    x.ordinary o = true ∧ x.calm = true ∧ (∀ t ∈ x.tokens, Bland t) ∧ x.comments = []
  | .hole a, h => by
    have h : a = {} := h
    subst h
    exact ⟨rfl, rfl, by simp [Arg.tokens], rfl⟩
  | .val a e, h => by
    obtain ⟨rfl, h1⟩ := h
    obtain ⟨e1, e2, e3, e4⟩ := Expr.Simple.ok e h1
    exact ⟨by simp [Arg.ordinary, ordinary_nil, e1], by simpa [Arg.calm] using e2, e3,
      by simp [Arg.comments, Ann.all, e4]⟩
  | .name a na n q, h => by
    obtain ⟨rfl, rfl, h1, h2⟩ := h
    obtain ⟨e1, e2, e3, e4⟩ := Expr.Simple.ok n h1
    refine ⟨by simp [Arg.ordinary, ordinary_nil, e1], by simpa [Arg.calm] using e2, ?_,
      by simp [Arg.comments, Ann.all, e4]⟩
    simp only [Arg.tokens]; grind
  | .named a na n q e, h => by
    obtain ⟨rfl, rfl, h1, h2, h3⟩ := h
    obtain ⟨e1, e2, e3, e4⟩ := Expr.Simple.ok n h1
    obtain ⟨f1, f2, f3, f4⟩ := Expr.Simple.ok e h3
    refine ⟨by simp [Arg.ordinary, ordinary_nil, e1, f1], by simp [Arg.calm, e2, f2], ?_,
      by simp [Arg.comments, Ann.all, e4, f4]⟩
    simp only [Arg.tokens]; grind
  | .pdef a n da q e, h => by
    obtain ⟨rfl, h1, rfl, h2, h3⟩ := h
    obtain ⟨e1, e2, e3, e4⟩ := Expr.Simple.ok n h1
    obtain ⟨f1, f2, f3, f4⟩ := Expr.Simple.ok e h3
    refine ⟨by simp [Arg.ordinary, ordinary_nil, e1, f1], by simp [Arg.calm, e2, f2], ?_,
      by simp [Arg.comments, Ann.all, e4, f4]⟩
    simp only [Arg.tokens]; grind
end

end Verif.Format
