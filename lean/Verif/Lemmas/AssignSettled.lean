import Verif.Spec.Assign
import Verif.Lemmas.FormatTidy

/-!
# Rewriting assignment operators once is enough
-/

namespace Verif.Format
open Verif.Syntax

theorem body_settled {s : Settings.AssignmentStyle} {br : Bool} {b b' b'' : Expr} (h : Body br b b' b'')
    (hb : b'.settled s true = true) : b''.settled s true = true := by
  unfold Body at h
  split at h
  · rw [h]; exact hb
  · rw [h]; simp [inBraces, Expr.settled, Exprs.settled, hb]

theorem operator_wants {o : Opts} {p : Place} {op op' : Token} (h : Operator o p op op') :
    wantsOp o.style p.assign op'.kind = false ∧
      (op'.kind == .equal || op'.kind == .assign || op'.kind == .wat) =
        (op.kind == .equal || op.kind == .assign || op.kind == .wat) := by
  unfold Operator at h
  split at h
  · next hc => subst h; simp [wantsOp, hc.1, hc.2]
  · next hn =>
    split at h
    · next hc => subst h; simp [wantsOp, hc.1, hc.2.1]
    · next hn' =>
      subst h
      refine ⟨?_, rfl⟩
      cases hw : wantsOp o.style p.assign op'.kind with
      | false => rfl
      | true =>
        simp only [wantsOp, Bool.or_eq_true, Bool.and_eq_true, beq_iff_eq] at hw
        rcases hw with hw | hw
        · exact absurd hw hn
        · exact absurd ⟨hw.1.1, hw.1.2, hw.2⟩ hn'

theorem no_skip {o : Opts} {a : Ann} (h : a.ordinary o = true) : a.asks o .skip = false := by
  simp only [Ann.ordinary, Bool.and_eq_true, Bool.not_eq_true'] at h
  exact h.1

mutual
/-- After rewriting, no operator is to be rewritten. -/
theorem becomes_settled (o : Opts) : ∀ (e e' : Expr) (p : Place), p.table = false →
    e.ordinary o = true → Becomes o p e e' → e'.settled o.style p.assign = true
  | .atom a k t, e', p, hp, ho, h => by
    have h : e' = _ := h
    rw [h]; rfl
  | .str a op c cl, e', p, hp, ho, h => by
    have h : e' = _ := h
    rw [h]; rfl
  | .paren a l e r, e', p, hp, ho, h => by
    obtain ⟨x, hx, rfl⟩ := ordinary_stays h ho
    simp only [Expr.ordinary, Bool.and_eq_true] at ho
    exact becomes_settled o e x .body rfl ho.2 hx
  | .braced a l es r, e', p, hp, ho, h => by
    obtain ⟨x, hx, rfl⟩ := ordinary_stays h ho
    simp only [Expr.ordinary, Bool.and_eq_true] at ho
    exact becomess_settled o es x false ho.2 hx
  | .unary a op e, e', p, hp, ho, h => by
    obtain ⟨x, hx, rfl⟩ := ordinary_stays h ho
    simp only [Expr.ordinary, Bool.and_eq_true] at ho
    exact becomes_settled o e x { assign := op.kind == .wat } rfl ho.2 hx
  | .binary a x op y, e', p, hp, ho, h => by
    obtain ⟨x', op', y', hx, hy, hop, rfl⟩ := ordinary_stays h ho
    simp only [Expr.ordinary, Bool.and_eq_true] at ho
    have hat : a.asks o .table = false := by
      have := ho.1.1
      simp only [Ann.ordinary, Bool.and_eq_true, Bool.not_eq_true'] at this
      exact this.2
    obtain ⟨w1, w2⟩ := operator_wants hop
    have h1 := becomes_settled o x x' _ rfl ho.1.2 hx
    have h2 := becomes_settled o y y' _ (by simp [hat]) ho.2 hy
    simp only [Expr.settled, w1, w2, Bool.not_false, Bool.true_and, Bool.and_eq_true]
    exact ⟨h1, h2⟩
  | .sel a k x op y, e', p, hp, ho, h => by
    obtain ⟨x', y', hx, hy, rfl⟩ := ordinary_stays h ho
    simp only [Expr.ordinary, Bool.and_eq_true] at ho
    simp only [Expr.settled, Bool.and_eq_true]
    exact ⟨becomes_settled o x x' {} rfl ho.1.2 hx, becomes_settled o y y' {} rfl ho.2 hy⟩
  | .call a k f aa l items r, e', p, hp, ho, h => by
    obtain ⟨f', items', hf, hi, rfl⟩ := ordinary_stays h ho
    simp only [Expr.ordinary, Bool.and_eq_true, Bool.not_eq_true'] at ho
    simp only [Expr.settled, Bool.and_eq_true]
    refine ⟨becomes_settled o f f' {} rfl ho.1.2 hf, ?_⟩
    rcases hi with hi | ⟨ht, -⟩
    · exact becomesItems_settled o items items' ho.2 hi
    · rw [← isTable_eq, hp, Bool.false_or, ordinary_dir ho.1.1.1 _ (.inr rfl), Bool.false_or,
        (listed_setting ho.1.1.2).2] at ht
      cases ht
  | .func a kw pa l items r b, e', p, hp, ho, h => by
    obtain ⟨items', b', b'', br, hi, hb, -, hB, rfl⟩ := ordinary_stays h ho
    simp only [Expr.ordinary, Bool.and_eq_true] at ho
    simp only [Expr.settled, Bool.and_eq_true]
    exact ⟨becomesItems_settled o items items' ho.1.2 hi,
      body_settled hB (becomes_settled o b b' .body rfl ho.2 hb)⟩
  | .ite a kw l c r t, e', p, hp, ho, h => by
    obtain ⟨c', t', t'', br, hc, ht, -, hB, rfl⟩ := ordinary_stays h ho
    simp only [Expr.ordinary, Bool.and_eq_true] at ho
    simp only [Expr.settled, Bool.and_eq_true]
    exact ⟨becomes_settled o c c' {} rfl ho.1.2 hc,
      body_settled hB (becomes_settled o t t' .body rfl ho.2 ht)⟩
  | .itee a kw l c r t ea el e, e', p, hp, ho, h => by
    obtain ⟨c', t', t'', x, x'', br, hc, ht, hx, -, hB, hB', rfl⟩ := ordinary_stays h ho
    simp only [Expr.ordinary, Bool.and_eq_true] at ho
    simp only [Expr.settled, Bool.and_eq_true]
    have h3 := becomes_settled o e x { Place.body with elseIf := e.isIf } rfl ho.2 hx
    refine ⟨⟨becomes_settled o c c' {} rfl ho.1.1.2 hc,
      body_settled hB (becomes_settled o t t' .body rfl ho.1.2 ht)⟩, ?_⟩
    split at hB'
    · rw [hB']; exact h3
    · exact body_settled hB' h3
  | .for_ a kw l v i s r b, e', p, hp, ho, h => by
    obtain ⟨v', s', b', b'', hv, hs, hb, hB, rfl⟩ := ordinary_stays h ho
    simp only [Expr.ordinary, Bool.and_eq_true] at ho
    simp only [Expr.settled, Bool.and_eq_true]
    exact ⟨⟨becomes_settled o v v' {} rfl ho.1.1.2 hv, becomes_settled o s s' {} rfl ho.1.2 hs⟩,
      body_settled hB (becomes_settled o b b' .body rfl ho.2 hb)⟩
  | .while_ a kw l c r b, e', p, hp, ho, h => by
    obtain ⟨c', b', b'', hc, hb, hB, rfl⟩ := ordinary_stays h ho
    simp only [Expr.ordinary, Bool.and_eq_true] at ho
    simp only [Expr.settled, Bool.and_eq_true]
    exact ⟨becomes_settled o c c' {} rfl ho.1.2 hc,
      body_settled hB (becomes_settled o b b' .body rfl ho.2 hb)⟩
  | .repeat_ a kw b, e', p, hp, ho, h => by
    obtain ⟨b', b'', hb, hB, rfl⟩ := ordinary_stays h ho
    simp only [Expr.ordinary, Bool.and_eq_true] at ho
    exact body_settled hB (becomes_settled o b b' .body rfl ho.2 hb)
theorem becomess_settled (o : Opts) : ∀ (es es' : Exprs) (top : Bool), es.ordinary o = true →
    Becomess o top es es' → es'.settled o.style = true
  | .nil, es', top, ho, h => by
    have h : es' = _ := h
    rw [h]; rfl
  | .cons e es, es', top, ho, h => by
    obtain ⟨x, xs, hx, hxs, rfl⟩ := h
    simp only [Exprs.ordinary, Bool.and_eq_true] at ho
    simp only [Exprs.settled, Bool.and_eq_true]
    exact ⟨becomes_settled o e x _ rfl ho.1 hx, becomess_settled o es xs top ho.2 hxs⟩
theorem becomesItems_settled (o : Opts) : ∀ (xs xs' : Items), xs.ordinary o = true →
    BecomesItems o xs xs' → xs'.settled o.style = true
  | .nil, xs', ho, h => by
    have h : xs' = _ := h
    rw [h]; rfl
  | .last x, xs', ho, h => by
    obtain ⟨x', hx, rfl⟩ := h
    exact becomesArg_settled o x x' ho hx
  | .cons x s xs, xs', ho, h => by
    obtain ⟨x', ys, hx, hxs, rfl⟩ := h
    simp only [Items.ordinary, Bool.and_eq_true] at ho
    simp only [Items.settled, Bool.and_eq_true]
    exact ⟨becomesArg_settled o x x' ho.1 hx, becomesItems_settled o xs ys ho.2 hxs⟩
theorem becomesArg_settled (o : Opts) : ∀ (x x' : Arg), x.ordinary o = true →
    BecomesArg o x x' → x'.settled o.style = true
  | .hole a, x', ho, h => by
    have h : x' = _ := h
    rw [h]; rfl
  | .val a e, x', ho, h => by
    simp only [Arg.ordinary, Bool.and_eq_true] at ho
    rcases h with ⟨h, -⟩ | ⟨e', he, rfl⟩
    · rw [no_skip ho.1] at h; cases h
    · exact becomes_settled o e e' {} rfl ho.2 he
  | .name a na n q, x', ho, h => by
    simp only [Arg.ordinary, Bool.and_eq_true] at ho
    rcases h with ⟨h, -⟩ | ⟨e', he, rfl⟩
    · rw [no_skip ho.1] at h; cases h
    · exact becomes_settled o n e' {} rfl ho.2 he
  | .named a na n q e, x', ho, h => by
    simp only [Arg.ordinary, Bool.and_eq_true] at ho
    rcases h with ⟨h, -⟩ | ⟨n', e', hn, he, rfl⟩
    · rw [no_skip ho.1.1] at h; cases h
    · simp only [Arg.settled, Bool.and_eq_true]
      exact ⟨becomes_settled o n n' {} rfl ho.1.2 hn, becomes_settled o e e' {} rfl ho.2 he⟩
  | .pdef a n da q e, x', ho, h => by
    simp only [Arg.ordinary, Bool.and_eq_true] at ho
    rcases h with ⟨h, -⟩ | ⟨n', e', hn, he, rfl⟩
    · rw [no_skip ho.1.1] at h; cases h
    · simp only [Arg.settled, Bool.and_eq_true]
      exact ⟨becomes_settled o n n' {} rfl ho.1.2 hn, becomes_settled o e e' {} rfl ho.2 he⟩
end

/-! ## Settled programs only get braces -/

/-- The tokens without braces. -/
def words (ts : List Token) : List Tok := (ts.map outTok).filter (fun t => !isBrace t)

@[simp] theorem words_nil : words [] = [] := rfl

@[simp] theorem words_append (a b : List Token) : words (a ++ b) = words a ++ words b := by
  simp [words]

/-- A single token. -/
def word (t : Token) : List Tok := words [t]

theorem words_cons (t : Token) (b : List Token) : words (t :: b) = word t ++ words b := by
  rw [word, ← words_append]; rfl

theorem body_words {br : Bool} {b b' b'' : Expr} (h : Body br b b' b'') :
    words b''.tokens = words b'.tokens := by
  unfold Body at h
  split at h
  · rw [h]
  · rw [h]
    rw [inBraces, Expr.tokens, Exprs.tokens, Exprs.tokens, words_cons, words_append, words_append]
    simp [word, words, isBrace, outTok]

theorem settled_operator {o : Opts} {p : Place} {op op' : Token} (h : Operator o p op op')
    (hs : wantsOp o.style p.assign op.kind = false) : op' = op := by
  simp only [wantsOp, Bool.or_eq_false_iff] at hs
  unfold Operator at h
  split at h
  · next hc => simp [hc.1, hc.2] at hs
  · split at h
    · next hc => simp [hc.1, hc.2.1, hc.2.2] at hs
    · exact h

mutual
theorem settled_words (o : Opts) : ∀ (e e' : Expr) (p : Place),
    e.settled o.style p.assign = true → Becomes o p e e' → words e'.tokens = words e.tokens
  | .atom a k t, e', p, hs, h => by
    have h : e' = _ := h
    rw [h]
  | .str a op c cl, e', p, hs, h => by
    have h : e' = _ := h
    rw [h]
  | .paren a l e r, e', p, hs, h => by
    rcases h with ⟨-, rfl⟩ | ⟨x, hx, rfl⟩
    · rfl
    · simp only [Expr.tokens, words_cons, words_append, settled_words o e x .body hs hx]
  | .braced a l es r, e', p, hs, h => by
    rcases h with ⟨-, rfl⟩ | ⟨x, hx, rfl⟩
    · rfl
    · simp only [Expr.tokens, words_cons, words_append, settleds_words o es x false hs hx]
  | .unary a op e, e', p, hs, h => by
    rcases h with ⟨-, rfl⟩ | ⟨x, hx, rfl⟩
    · rfl
    · simp only [Expr.tokens, words_cons, settled_words o e x { assign := op.kind == .wat } hs hx]
  | .binary a x op y, e', p, hs, h => by
    rcases h with ⟨-, rfl⟩ | ⟨x', op', y', hx, hy, hop, rfl⟩
    · rfl
    · simp only [Expr.settled, Bool.and_eq_true, Bool.not_eq_true'] at hs
      simp only [settled_operator hop hs.1.1, Expr.tokens, words_cons, words_append, settled_words o x x' _ hs.1.2 hx,
        settled_words o y y' _ hs.2 hy]
  | .sel a k x op y, e', p, hs, h => by
    rcases h with ⟨-, rfl⟩ | ⟨x', y', hx, hy, rfl⟩
    · rfl
    · simp only [Expr.settled, Bool.and_eq_true] at hs
      simp only [Expr.tokens, words_cons, words_append, settled_words o x x' {} hs.1 hx,
        settled_words o y y' {} hs.2 hy]
  | .call a k f aa l items r, e', p, hs, h => by
    rcases h with ⟨-, rfl⟩ | ⟨f', items', hf, hi, rfl⟩
    · rfl
    · simp only [Expr.settled, Bool.and_eq_true] at hs
      have h2 : words items'.tokens = words items.tokens := by
        rcases hi with hi | ⟨-, rfl⟩
        · exact settledItems_words o items items' hs.2 hi
        · rfl
      simp only [Expr.tokens, words_cons, words_append, settled_words o f f' {} hs.1 hf, h2]
  | .func a kw pa l items r b, e', p, hs, h => by
    rcases h with ⟨-, rfl⟩ | ⟨items', b', b'', br, hi, hb, -, hB, rfl⟩
    · rfl
    · simp only [Expr.settled, Bool.and_eq_true] at hs
      have h1 := settledItems_words o items items' hs.1 hi
      have h2 := (body_words hB).trans (settled_words o b b' .body hs.2 hb)
      simp only [Expr.tokens, words_cons, words_append, h1, h2]
  | .ite a kw l c r t, e', p, hs, h => by
    rcases h with ⟨-, rfl⟩ | ⟨c', t', t'', br, hc, ht, -, hB, rfl⟩
    · rfl
    · simp only [Expr.settled, Bool.and_eq_true] at hs
      have h1 := settled_words o c c' {} hs.1 hc
      have h2 := (body_words hB).trans (settled_words o t t' .body hs.2 ht)
      simp only [Expr.tokens, words_cons, words_append, h1, h2]
  | .itee a kw l c r t ea el e, e', p, hs, h => by
    rcases h with ⟨-, rfl⟩ | ⟨c', t', t'', x, x'', br, hc, ht, hx, -, hB, hB', rfl⟩
    · rfl
    · simp only [Expr.settled, Bool.and_eq_true] at hs
      have h1 := settled_words o c c' {} hs.1.1 hc
      have h2 := (body_words hB).trans (settled_words o t t' .body hs.1.2 ht)
      have h3 := settled_words o e x { Place.body with elseIf := e.isIf } hs.2 hx
      have h4 : words x''.tokens = words e.tokens := by
        split at hB'
        · rw [hB']; exact h3
        · exact (body_words hB').trans h3
      simp only [Expr.tokens, words_cons, words_append, h1, h2, h4]
  | .for_ a kw l v i s r b, e', p, hs, h => by
    rcases h with ⟨-, rfl⟩ | ⟨v', s', b', b'', hv, hs', hb, hB, rfl⟩
    · rfl
    · simp only [Expr.settled, Bool.and_eq_true] at hs
      have h1 := settled_words o v v' {} hs.1.1 hv
      have h2 := settled_words o s s' {} hs.1.2 hs'
      have h3 := (body_words hB).trans (settled_words o b b' .body hs.2 hb)
      simp only [Expr.tokens, words_cons, words_append, h1, h2, h3]
  | .while_ a kw l c r b, e', p, hs, h => by
    rcases h with ⟨-, rfl⟩ | ⟨c', b', b'', hc, hb, hB, rfl⟩
    · rfl
    · simp only [Expr.settled, Bool.and_eq_true] at hs
      have h1 := settled_words o c c' {} hs.1 hc
      have h2 := (body_words hB).trans (settled_words o b b' .body hs.2 hb)
      simp only [Expr.tokens, words_cons, words_append, h1, h2]
  | .repeat_ a kw b, e', p, hs, h => by
    rcases h with ⟨-, rfl⟩ | ⟨b', b'', hb, hB, rfl⟩
    · rfl
    · have h2 := (body_words hB).trans (settled_words o b b' .body hs hb)
      simp only [Expr.tokens, words_cons, h2]
theorem settleds_words (o : Opts) : ∀ (es es' : Exprs) (top : Bool), es.settled o.style = true →
    Becomess o top es es' → words es'.tokens = words es.tokens
  | .nil, es', top, hs, h => by
    have h : es' = _ := h
    rw [h]
  | .cons e es, es', top, hs, h => by
    obtain ⟨x, xs, hx, hxs, rfl⟩ := h
    simp only [Exprs.settled, Bool.and_eq_true] at hs
    simp only [Exprs.tokens, words_append, settled_words o e x _ hs.1 hx,
      settleds_words o es xs top hs.2 hxs]
theorem settledItems_words (o : Opts) : ∀ (xs xs' : Items), xs.settled o.style = true →
    BecomesItems o xs xs' → words xs'.tokens = words xs.tokens
  | .nil, xs', hs, h => by
    have h : xs' = _ := h
    rw [h]
  | .last x, xs', hs, h => by
    obtain ⟨x', hx, rfl⟩ := h
    exact settledArg_words o x x' hs hx
  | .cons x s xs, xs', hs, h => by
    obtain ⟨x', ys, hx, hxs, rfl⟩ := h
    simp only [Items.settled, Bool.and_eq_true] at hs
    simp only [Items.tokens, words_append, words_cons,
      settledArg_words o x x' hs.1 hx, settledItems_words o xs ys hs.2 hxs]
theorem settledArg_words (o : Opts) : ∀ (x x' : Arg), x.settled o.style = true →
    BecomesArg o x x' → words x'.tokens = words x.tokens
  | .hole a, x', hs, h => by
    have h : x' = _ := h
    rw [h]
  | .val a e, x', hs, h => by
    rcases h with ⟨-, rfl⟩ | ⟨e', he, rfl⟩
    · rfl
    · exact settled_words o e e' {} hs he
  | .name a na n q, x', hs, h => by
    rcases h with ⟨-, rfl⟩ | ⟨n', hn, rfl⟩
    · rfl
    · rw [Arg.tokens, Arg.tokens, words_append, words_append, settled_words o n n' {} hs hn]
  | .named a na n q e, x', hs, h => by
    rcases h with ⟨-, rfl⟩ | ⟨n', e', hn, he, rfl⟩
    · rfl
    · simp only [Arg.settled, Bool.and_eq_true] at hs
      simp only [Arg.tokens, words_append, words_cons,
        settled_words o n n' {} hs.1 hn, settled_words o e e' {} hs.2 he]
  | .pdef a n da q e, x', hs, h => by
    rcases h with ⟨-, rfl⟩ | ⟨n', e', hn, he, rfl⟩
    · rfl
    · simp only [Arg.settled, Bool.and_eq_true] at hs
      simp only [Arg.tokens, words_append, words_cons,
        settled_words o n n' {} hs.1 hn, settled_words o e e' {} hs.2 he]
end

/-! ## Trivia does not matter -/

mutual
theorem bare_settled (s : Settings.AssignmentStyle) : ∀ (e : Expr) (eq : Bool),
    e.bare.settled s eq = e.settled s eq
  | .atom .., eq => rfl
  | .str .., eq => rfl
  | .paren a l e r, eq => bare_settled s e true
  | .braced a l es r, eq => bares_settled s es
  | .unary a op e, eq => bare_settled s e _
  | .binary a x op y, eq => by
    simp only [Expr.bare, Expr.settled, bare_settled s x, bare_settled s y]; rfl
  | .sel a k x op y, eq => by
    simp only [Expr.bare, Expr.settled, bare_settled s x, bare_settled s y]
  | .call a k f aa l items r, eq => by
    simp only [Expr.bare, Expr.settled, bare_settled s f, bareItems_settled s items]
  | .func a kw pa l items r b, eq => by
    simp only [Expr.bare, Expr.settled, bare_settled s b, bareItems_settled s items]
  | .ite a kw l c r t, eq => by
    simp only [Expr.bare, Expr.settled, bare_settled s c, bare_settled s t]
  | .itee a kw l c r t ea el e, eq => by
    simp only [Expr.bare, Expr.settled, bare_settled s c, bare_settled s t, bare_settled s e]
  | .for_ a kw l v i q r b, eq => by
    simp only [Expr.bare, Expr.settled, bare_settled s v, bare_settled s q, bare_settled s b]
  | .while_ a kw l c r b, eq => by
    simp only [Expr.bare, Expr.settled, bare_settled s c, bare_settled s b]
  | .repeat_ a kw b, eq => bare_settled s b true
theorem bares_settled (s : Settings.AssignmentStyle) : ∀ es : Exprs, es.bare.settled s = es.settled s
  | .nil => rfl
  | .cons e es => by simp only [Exprs.bare, Exprs.settled, bare_settled s e, bares_settled s es]
theorem bareItems_settled (s : Settings.AssignmentStyle) : ∀ xs : Items,
    xs.bare.settled s = xs.settled s
  | .nil => rfl
  | .last x => bareArg_settled s x
  | .cons x c xs => by
    simp only [Items.bare, Items.settled, bareArg_settled s x, bareItems_settled s xs]
theorem bareArg_settled (s : Settings.AssignmentStyle) : ∀ x : Arg, x.bare.settled s = x.settled s
  | .hole _ => rfl
  | .val a e => bare_settled s e false
  | .name a na n q => bare_settled s n false
  | .named a na n q e => by simp only [Arg.bare, Arg.settled, bare_settled s n, bare_settled s e]
  | .pdef a n da q e => by simp only [Arg.bare, Arg.settled, bare_settled s n, bare_settled s e]
end

end Verif.Format
