import Verif.Lemmas.NotedMain

/-!
# The grammar and programs with statements for comments
-/

namespace Verif.Format
open Verif.Syntax

variable {o : Opts} {N : Nat} {h : Token → Token}

theorem hush_kind (t : Token) : (hush t).kind = t.kind := rfl

theorem voiced_llow (hh : Mild h) : (e : Expr) → (e.voiced N h).llow = e.llow
  | .binary a x p y => by simp only [Expr.voiced, Expr.llow, hush_kind, voiced_llow hh x]
  | .sel a k x p y => by
    cases k
    · simp only [Expr.voiced, Expr.llow, voiced_llow hh x]
    · rfl
  | .call a k f aa l items r => by simp only [Expr.voiced, Expr.llow, voiced_llow hh f]
  | .atom .. | .str .. | .paren .. | .braced .. | .unary .. | .func .. | .ite .. | .itee .. | .for_ .. | .while_ ..
  | .repeat_ .. => rfl

theorem voiced_rcap {h : Token → Token} (hh : Mild h) : (e : Expr) → (e.voiced N h).rcap = e.rcap
  | .unary a p e => by simp only [Expr.voiced, Expr.rcap, hh.kind, voiced_rcap mild_hush e]
  | .binary a x p y => by simp only [Expr.voiced, Expr.rcap, hush_kind, voiced_rcap mild_hush y]
  | .func a kw pa l items r b => by simp only [Expr.voiced, Expr.rcap, voiced_rcap mild_hush b]
  | .ite a kw l c r t => by simp only [Expr.voiced, Expr.rcap, voiced_rcap mild_hush t]
  | .itee a kw l c r t ea el e => by simp only [Expr.voiced, Expr.rcap, voiced_rcap mild_hush e]
  | .for_ a kw l v i s r b => by simp only [Expr.voiced, Expr.rcap, voiced_rcap mild_hush b]
  | .while_ a kw l c r b => by simp only [Expr.voiced, Expr.rcap, voiced_rcap mild_hush b]
  | .repeat_ a kw b => by simp only [Expr.voiced, Expr.rcap, voiced_rcap mild_hush b]
  | .atom .. | .str .. | .paren .. | .braced .. | .sel .. | .call .. => rfl

theorem voiced_openIf {h : Token → Token} : (e : Expr) → (e.voiced N h).openIf = e.openIf
  | .unary a p e => by simp only [Expr.voiced, Expr.openIf, voiced_openIf e]
  | .binary a x p y => by simp only [Expr.voiced, Expr.openIf, voiced_openIf y]
  | .func a kw pa l items r b => by simp only [Expr.voiced, Expr.openIf, voiced_openIf b]
  | .itee a kw l c r t ea el e => by simp only [Expr.voiced, Expr.openIf, voiced_openIf e]
  | .for_ a kw l v i s r b => by simp only [Expr.voiced, Expr.openIf, voiced_openIf b]
  | .while_ a kw l c r b => by simp only [Expr.voiced, Expr.openIf, voiced_openIf b]
  | .repeat_ a kw b => by simp only [Expr.voiced, Expr.openIf, voiced_openIf b]
  | .atom .. | .str .. | .paren .. | .braced .. | .sel .. | .call .. | .ite .. => rfl

theorem voiced_strKinds (hh : Mild h) (p l : Token) (c : Option Token) :
    strKinds (h p) (c.map hush) (hush l) = strKinds p c l := by
  cases c <;> simp [strKinds, hh.kind, hush_kind]

theorem voiced_selector (hh : Mild h) (e : Expr) : (e.voiced N h).selector = e.selector := by
  cases e <;> simp only [Expr.voiced, Expr.selector, hh.kind, voiced_strKinds hh]

theorem voiced_argName (hh : Mild h) (e : Expr) : (e.voiced N h).argName = e.argName := by
  cases e <;> simp only [Expr.voiced, Expr.argName, hh.kind, voiced_strKinds hh]

theorem voiced_parName (hh : Mild h) (e : Expr) : (e.voiced N h).parName = e.parName := by
  cases e <;> simp only [Expr.voiced, Expr.parName, hh.kind]

theorem notes_gram {k : Nat → Exprs} {b : Bool} (hk : ∀ n, (k n).gram = b) : ∀ (cs : List Comment) (n : Nat),
    (notes N n cs k).gram = b
  | [], n => hk n
  | c :: cs, n => by
    rw [notes, Exprs.gram, notes_gram hk cs]
    cases b <;> rfl

mutual
theorem gram_voiced {h : Token → Token} (hh : Mild h) : (e : Expr) → ∀ eq, (e.voiced N h).gram eq = e.gram eq
  | .atom a k t, eq => by simp only [Expr.voiced, Expr.gram, hh.kind]
  | .str a p c l, eq => by simp only [Expr.voiced, Expr.gram, voiced_strKinds hh]
  | .paren a l e r, eq => by simp only [Expr.voiced, Expr.gram, hh.kind, hush_kind, gram_voiced mild_hush e]
  | .braced a l es r, eq => by simp only [Expr.voiced, Expr.gram, hh.kind, hush_kind, grams_voiced es]
  | .unary a p e, eq => by
    simp only [Expr.voiced, Expr.gram, hh.kind, gram_voiced mild_hush e, voiced_llow mild_hush]
  | .binary a x p y, eq => by
    simp only [Expr.voiced, Expr.gram, hush_kind, gram_voiced hh x, gram_voiced mild_hush y, voiced_llow mild_hush,
      voiced_rcap hh]
  | .sel a .extract x p y, eq => by
    simp only [Expr.voiced, Expr.gram, hush_kind, gram_voiced hh x, voiced_rcap hh, voiced_selector mild_hush]
  | .sel a .namespace x p y, eq => by
    simp only [Expr.voiced, Expr.gram, hush_kind, voiced_selector mild_hush, voiced_selector hh]
  | .call a k f aa l items r, eq => by
    simp only [Expr.voiced, Expr.gram, hush_kind, gram_voiced hh f, voiced_rcap hh, gramArgs_voiced items]
  | .func a kw pa l items r b, eq => by
    simp only [Expr.voiced, Expr.gram, hh.kind, hush_kind, gramPars_voiced items, gram_voiced mild_hush b,
      voiced_llow mild_hush]
  | .ite a kw l c r t, eq => by
    simp only [Expr.voiced, Expr.gram, hh.kind, hush_kind, gram_voiced mild_hush c, gram_voiced mild_hush t,
      voiced_llow mild_hush]
  | .itee a kw l c r t ea el e, eq => by
    simp only [Expr.voiced, Expr.gram, hh.kind, hush_kind, gram_voiced mild_hush c, gram_voiced mild_hush t,
      gram_voiced mild_hush e, voiced_llow mild_hush, voiced_openIf]
  | .for_ a kw l v i s r b, eq => by
    simp only [Expr.voiced, Expr.gram, hh.kind, hush_kind, gram_voiced mild_hush s, gram_voiced mild_hush b,
      voiced_llow mild_hush, voiced_parName mild_hush]
  | .while_ a kw l c r b, eq => by
    simp only [Expr.voiced, Expr.gram, hh.kind, hush_kind, gram_voiced mild_hush c, gram_voiced mild_hush b,
      voiced_llow mild_hush]
  | .repeat_ a kw b, eq => by
    simp only [Expr.voiced, Expr.gram, hh.kind, gram_voiced mild_hush b, voiced_llow mild_hush]
theorem grams_voiced : (es : Exprs) → (es.voiced N).gram = es.gram
  | .nil => rfl
  | .cons e es => by
    rw [Exprs.voiced]
    refine notes_gram (fun n => ?_) _ _
    rw [Exprs.gram, Exprs.gram, gram_voiced (mild_fresh n) e, grams_voiced es]
theorem gramArgs_voiced : (xs : Items) → ∀ first, (xs.voiced N).gramArgs first = xs.gramArgs first
  | .nil, _ => rfl
  | .last x, first => by
    simp only [Items.voiced, Items.gramArgs, gramArg_voiced x]
    cases x <;> rfl
  | .cons x s xs, first => by
    simp only [Items.voiced, Items.gramArgs, gramArg_voiced x, gramArgs_voiced xs, hush_kind]
theorem gramArg_voiced : (x : Arg) → (x.voiced N).gramArg = x.gramArg
  | .hole _ => rfl
  | .val a e => by simp only [Arg.voiced, Arg.gramArg, gram_voiced mild_hush e]
  | .name a na n p => by simp only [Arg.voiced, Arg.gramArg, voiced_argName mild_hush, hush_kind]
  | .named a na n p e => by
    simp only [Arg.voiced, Arg.gramArg, voiced_argName mild_hush, hush_kind, gram_voiced mild_hush e]
  | .pdef .. => rfl
theorem gramPars_voiced : (xs : Items) → (xs.voiced N).gramPars = xs.gramPars
  | .nil => rfl
  | .last x => by simp only [Items.voiced, Items.gramPars, gramPar_voiced x]
  | .cons x s xs => by simp only [Items.voiced, Items.gramPars, gramPar_voiced x, gramPars1_voiced xs, hush_kind]
theorem gramPars1_voiced : (xs : Items) → (xs.voiced N).gramPars1 = xs.gramPars1
  | .nil => rfl
  | .last x => by simp only [Items.voiced, Items.gramPars1, gramPar_voiced x]
  | .cons x s xs => by simp only [Items.voiced, Items.gramPars1, gramPar_voiced x, gramPars1_voiced xs, hush_kind]
theorem gramPar_voiced : (x : Arg) → (x.voiced N).gramPar = x.gramPar
  | .hole _ => rfl
  | .val a e => by simp only [Arg.voiced, Arg.gramPar, voiced_parName mild_hush]
  | .name .. => rfl
  | .named .. => rfl
  | .pdef a n da p e => by
    simp only [Arg.voiced, Arg.gramPar, voiced_parName mild_hush, hush_kind, gram_voiced mild_hush e]
end

theorem voiced_isArrow {h : Token → Token} (e : Expr) : (e.voiced N h).isArrow = e.isArrow := by
  cases e <;> rfl

theorem voiced_isEqual {h : Token → Token} (e : Expr) : (e.voiced N h).isEqual = e.isEqual := by
  cases e <;> rfl

theorem voiced_skip {h : Token → Token} {dir : Bool} (e : Expr) (he : e.isEqual = true) :
    asksSkip o dir (e.voiced N h) = false := by
  cases e with
  | binary a x p y => simp [Expr.voiced, asksSkip, Ann.asks, Expr.ann]
  | _ => cases he

theorem notes_clear {k : Nat → Exprs} (hk : ∀ n, (k n).clear o = true) : ∀ (cs : List Comment) (n : Nat),
    (notes N n cs k).clear o = true
  | [], n => hk n
  | c :: cs, n => by
    rw [notes, Exprs.clear, notes_clear hk cs]
    rfl

mutual
theorem clear_voiced {h : Token → Token} : (e : Expr) → e.clear o = true → (e.voiced N h).clear o = true
  | .atom .., _ => rfl
  | .str .., _ => rfl
  | .paren a l e r, hc => clear_voiced e hc
  | .braced a l es r, hc => clears_voiced es hc
  | .unary a p e, hc => clear_voiced e hc
  | .binary a x p y, hc => by
    simp only [Expr.clear, Bool.and_eq_true, Bool.not_eq_true'] at hc
    obtain ⟨⟨⟨h1, h2⟩, h3⟩, h4⟩ := hc
    simp only [Expr.voiced, Expr.clear, clear_voiced x h1, clear_voiced y h2, hush_kind, voiced_isArrow, h3]
    cases he : y.isEqual
    · simp [voiced_isEqual, he]
    · simp [voiced_skip y he]
  | .sel a k x p y, hc => by
    simp only [Expr.clear, Bool.and_eq_true] at hc
    simp only [Expr.voiced, Expr.clear, clear_voiced x hc.1, clear_voiced y hc.2, Bool.and_self]
  | .call a k f aa l items r, hc => by
    simp only [Expr.clear, Bool.and_eq_true] at hc
    simp only [Expr.voiced, Expr.clear, clear_voiced f hc.1, clear_voicedItems items hc.2, Bool.and_self]
  | .func a kw pa l items r b, hc => by
    simp only [Expr.clear, Bool.and_eq_true] at hc
    simp only [Expr.voiced, Expr.clear, clear_voiced b hc.2, clear_voicedItems items hc.1, Bool.and_self]
  | .ite a kw l c r t, hc => by
    simp only [Expr.clear, Bool.and_eq_true] at hc
    simp only [Expr.voiced, Expr.clear, clear_voiced c hc.1, clear_voiced t hc.2, Bool.and_self]
  | .itee a kw l c r t ea el e, hc => by
    simp only [Expr.clear, Bool.and_eq_true] at hc
    simp only [Expr.voiced, Expr.clear, clear_voiced c hc.1.1, clear_voiced t hc.1.2, clear_voiced e hc.2, Bool.and_self]
  | .for_ a kw l v i s r b, hc => by
    simp only [Expr.clear, Bool.and_eq_true] at hc
    simp only [Expr.voiced, Expr.clear, clear_voiced v hc.1.1, clear_voiced s hc.1.2, clear_voiced b hc.2, Bool.and_self]
  | .while_ a kw l c r b, hc => by
    simp only [Expr.clear, Bool.and_eq_true] at hc
    simp only [Expr.voiced, Expr.clear, clear_voiced c hc.1, clear_voiced b hc.2, Bool.and_self]
  | .repeat_ a kw b, hc => clear_voiced b hc
theorem clears_voiced : (es : Exprs) → es.clear o = true → (es.voiced N).clear o = true
  | .nil, _ => rfl
  | .cons e es, hc => by
    simp only [Exprs.clear, Bool.and_eq_true] at hc
    rw [Exprs.voiced]
    refine notes_clear (fun n => ?_) _ _
    rw [Exprs.clear, clear_voiced e hc.1, clears_voiced es hc.2]
    rfl
theorem clear_voicedItems : (xs : Items) → xs.clear o = true → (xs.voiced N).clear o = true
  | .nil, _ => rfl
  | .last x, hc => clear_voicedArg x hc
  | .cons x s xs, hc => by
    simp only [Items.clear, Bool.and_eq_true] at hc
    simp only [Items.voiced, Items.clear, clear_voicedArg x hc.1, clear_voicedItems xs hc.2, Bool.and_self]
theorem clear_voicedArg : (x : Arg) → x.clear o = true → (x.voiced N).clear o = true
  | .hole _, _ => rfl
  | .val a e, hc => clear_voiced e hc
  | .name a na n p, hc => clear_voiced n hc
  | .named a na n p e, hc => by
    simp only [Arg.clear, Bool.and_eq_true] at hc
    simp only [Arg.voiced, Arg.clear, clear_voiced n hc.1, clear_voiced e hc.2, Bool.and_self]
  | .pdef a n da p e, hc => by
    simp only [Arg.clear, Bool.and_eq_true] at hc
    simp only [Arg.voiced, Arg.clear, clear_voiced n hc.1, clear_voiced e hc.2, Bool.and_self]
end

end Verif.Format
