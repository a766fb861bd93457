import Verif.Lemmas.NotedGram

/-!
# Programs whose comments lead statements are calm
-/

namespace Verif.Format
open Verif.Syntax

variable {o : Opts} {N : Nat} {h : Token → Token}

theorem Ann.Led.ordinary {a : Ann} (h : a.Led o) : a.ordinary o = true := by
  have key : ∀ d, a.asks o d = false := by
    intro d
    simp only [Ann.asks, List.any_eq_false]
    intro c hc
    rw [(h.2.2 c hc).1]
    simp
  simp [Ann.ordinary, key]

theorem Ann.Led.free {a : Ann} (h : a.Led o) : a.dangling = [] := h.1

theorem led_empty : ({} : Ann).Led o := ⟨rfl, rfl, nofun⟩

/-- What is known about such an expression. -/
def Fit1 (o : Opts) (e : Expr) : Prop := e.calm = true ∧ e.ordinary o = true ∧ tailNl e = false

mutual
theorem noted_fine : (e : Expr) → e.Noted o N → Fit1 o e
  | .atom a k t, hn => by
    refine ⟨by simpa [Expr.calm] using hn.2.2, hn.1.ordinary, by simp [tailNl, hn.1.free]⟩
  | .str a p c l, hn => ⟨rfl, hn.1.ordinary, by simp [tailNl, hn.1.free]⟩
  | .paren a l e r, hn => by
    obtain ⟨n1, -, -, -, n2, -⟩ := hn
    obtain ⟨a1, a2, a3⟩ := noted_fine e n2
    exact ⟨a1, by simp [Expr.ordinary, n1.ordinary, a2], by simp [tailNl, n1.free]⟩
  | .braced a l es r, hn => by
    obtain ⟨n1, -, -, n2, -⟩ := hn
    obtain ⟨a1, a2⟩ := noted_fines es n2
    exact ⟨a1, by simp [Expr.ordinary, n1.ordinary, a2], rfl⟩
  | .unary a p e, hn => by
    obtain ⟨n1, -, n3, n2⟩ := hn
    obtain ⟨a1, a2, a3⟩ := noted_fine e n2
    exact ⟨a1, by simp [Expr.ordinary, n1.ordinary, a2], by simp [tailNl, n1.free, n3, a3, Ann.any]⟩
  | .binary a x p y, hn => by
    obtain ⟨n1, -, n2, -, -, n3⟩ := hn
    obtain ⟨a1, a2, a3⟩ := noted_fine x n2
    obtain ⟨b1, b2, b3⟩ := noted_fine y n3
    exact ⟨by simp [Expr.calm, a1, a3, b1], by simp [Expr.ordinary, n1.ordinary, a2, b2],
      by simp [tailNl, n1.free, b3]⟩
  | .sel a k x p y, hn => by
    obtain ⟨n1, -, n2, -, n4, n3, n5⟩ := hn
    obtain ⟨a1, a2, a3⟩ := noted_fine x n2
    obtain ⟨b1, b2, b3⟩ := noted_fine y n3
    refine ⟨?_, by simp [Expr.ordinary, n1.ordinary, a2, b2], by simp [tailNl, n1.free, b3]⟩
    cases k
    · simp [Expr.calm, a1, a3, b1]
    · simp [Expr.calm, a1, a3, b1, n4, n5 rfl]
  | .call a k f aa l items r, hn => by
    obtain ⟨n1, n2, n3, -, n4, -, n5, -, -⟩ := hn
    obtain ⟨a1, a2, a3⟩ := noted_fine f n4
    obtain ⟨b1, b2⟩ := noted_fineItems items n5
    exact ⟨by simp [Expr.calm, a1, a3, b1, n2], by simp [Expr.ordinary, n1.ordinary, a2, b2, n3],
      by simp [tailNl, n1.free]⟩
  | .func a kw pa l items r b, hn => by
    obtain ⟨n1, -, -, -, -, n2, -, -, n3⟩ := hn
    obtain ⟨a1, a2⟩ := noted_fineItems items n2
    obtain ⟨b1, b2, b3⟩ := noted_fine b n3
    exact ⟨by simp [Expr.calm, a1, b1], by simp [Expr.ordinary, n1.ordinary, a2, b2], by simp [tailNl, n1.free, b3]⟩
  | .ite a kw l c r t, hn => by
    obtain ⟨n1, -, -, -, n2, -, -, n3⟩ := hn
    obtain ⟨a1, a2, a3⟩ := noted_fine c n2
    obtain ⟨b1, b2, b3⟩ := noted_fine t n3
    exact ⟨by simp [Expr.calm, a1, b1], by simp [Expr.ordinary, n1.ordinary, a2, b2], by simp [tailNl, n1.free, b3]⟩
  | .itee a kw l c r t ea el e, hn => by
    obtain ⟨n1, n0, -, -, -, n2, -, -, n3, -, -, -, n4⟩ := hn
    obtain ⟨a1, a2, a3⟩ := noted_fine c n2
    obtain ⟨b1, b2, b3⟩ := noted_fine t n3
    obtain ⟨c1, c2, c3⟩ := noted_fine e n4
    exact ⟨by simp [Expr.calm, a1, b1, b3, c1, n0], by simp [Expr.ordinary, n1.ordinary, a2, b2, c2],
      by simp [tailNl, n1.free, c3, n0]⟩
  | .for_ a kw l v i s r b, hn => by
    obtain ⟨n1, -, -, -, n2, -, -, n3, -, -, n4⟩ := hn
    obtain ⟨a1, a2, a3⟩ := noted_fine v n2
    obtain ⟨b1, b2, b3⟩ := noted_fine s n3
    obtain ⟨c1, c2, c3⟩ := noted_fine b n4
    exact ⟨by simp [Expr.calm, a1, b1, c1], by simp [Expr.ordinary, n1.ordinary, a2, b2, c2], by simp [tailNl, n1.free]⟩
  | .while_ a kw l c r b, hn => by
    obtain ⟨n1, -, -, -, n2, -, -, n3⟩ := hn
    obtain ⟨a1, a2, a3⟩ := noted_fine c n2
    obtain ⟨b1, b2, b3⟩ := noted_fine b n3
    exact ⟨by simp [Expr.calm, a1, b1], by simp [Expr.ordinary, n1.ordinary, a2, b2], by simp [tailNl, n1.free]⟩
  | .repeat_ a kw b, hn => by
    obtain ⟨n1, -, -, n2⟩ := hn
    obtain ⟨a1, a2, a3⟩ := noted_fine b n2
    exact ⟨by simp [Expr.calm, a1], by simp [Expr.ordinary, n1.ordinary, a2], by simp [tailNl, n1.free]⟩
theorem noted_fines : (es : Exprs) → es.Noted o N → es.calm = true ∧ es.ordinary o = true
  | .nil, _ => ⟨rfl, rfl⟩
  | .cons e es, hn => by
    obtain ⟨a1, a2, a3⟩ := noted_fine e hn.1
    obtain ⟨b1, b2⟩ := noted_fines es hn.2
    exact ⟨by simp [Exprs.calm, a1, b1], by simp [Exprs.ordinary, a2, b2]⟩
theorem noted_fineItems : (xs : Items) → xs.Noted o N → xs.calm = true ∧ xs.ordinary o = true
  | .nil, _ => ⟨rfl, rfl⟩
  | .last x, hn => noted_fineArg x hn
  | .cons x s xs, hn => by
    obtain ⟨a1, a2⟩ := noted_fineArg x hn.1
    obtain ⟨b1, b2⟩ := noted_fineItems xs hn.2.2
    exact ⟨by simp [Items.calm, a1, b1], by simp [Items.ordinary, a2, b2]⟩
theorem noted_fineArg : (x : Arg) → x.Noted o N → x.calm = true ∧ x.ordinary o = true
  | .hole a, hn => by
    have : a = {} := hn
    subst this
    exact ⟨rfl, led_empty.ordinary⟩
  | .val a e, hn => by
    obtain ⟨a1, a2, a3⟩ := noted_fine e hn.2.2.2
    exact ⟨a1, by simp [Arg.ordinary, hn.1, led_empty.ordinary, a2]⟩
  | .name a na n p, hn => by
    obtain ⟨n1, -, -, n2, -⟩ := hn
    obtain ⟨a1, a2, a3⟩ := noted_fine n n2
    exact ⟨a1, by simp [Arg.ordinary, n1, led_empty.ordinary, a2]⟩
  | .named a na n p e, hn => by
    obtain ⟨n1, -, -, n2, -, -, n3⟩ := hn
    obtain ⟨a1, a2, a3⟩ := noted_fine n n2
    obtain ⟨b1, b2, b3⟩ := noted_fine e n3
    exact ⟨by simp [Arg.calm, a1, b1], by simp [Arg.ordinary, n1, led_empty.ordinary, a2, b2]⟩
  | .pdef a n da p e, hn => by
    obtain ⟨n1, -, n2, -, -, -, n3⟩ := hn
    obtain ⟨a1, a2, a3⟩ := noted_fine n n2
    obtain ⟨b1, b2, b3⟩ := noted_fine e n3
    exact ⟨by simp [Arg.calm, a1, b1], by simp [Arg.ordinary, n1, led_empty.ordinary, a2, b2]⟩
end

end Verif.Format
