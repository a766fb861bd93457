import Verif.Spec.Calm
import Verif.Lemmas.FormatCalm
import Verif.Lemmas.FormatBecomes
import Verif.Lemmas.FormatEdits

/-!
# Braces are consistent after formatting
-/

namespace Verif.Format
open Verif.Syntax

theorem ordinary_stays {o : Opts} {e e' : Expr} {P : Prop} (h : OrStays o e e' P)
    (ho : e.ordinary o = true) : P := by
  rcases h with ⟨h, -⟩ | h
  · have := ordinary_suppressed (o := o) (cx := { dir := true }) ho
    rw [suppressed_eq, h] at this
    cases this
  · exact h

theorem body_braced {br : Bool} {b b' b'' : Expr} (h : Body br b b' b'')
    (hb : b'.isBraced = b.isBraced) : b''.isBraced = (b.isBraced || br) := by
  unfold Body at h
  split at h
  · next hc =>
    rw [h, hb]
    rcases hc with hc | hc <;> rw [hc] <;> simp
  · next hc =>
    rw [h]
    cases hbr : br with
    | false => exact absurd (.inr hbr) hc
    | true => simp [inBraces, Expr.isBraced]

theorem body_tidy {br : Bool} {b b' b'' : Expr} (h : Body br b b' b'') : b''.tidy = b'.tidy := by
  unfold Body at h
  split at h
  · rw [h]
  · rw [h]; simp [inBraces, Expr.tidy, Exprs.tidy]

theorem body_effects {br : Bool} {b b' b'' : Expr} (h : Body br b b' b'') :
    b''.effects = b'.effects := by
  unfold Body at h
  split at h
  · rw [h]
  · rw [h]; simp [inBraces, Expr.effects, Exprs.effects, Exprs.length]

theorem body_if {br : Bool} {b b' b'' : Expr} (h : Body br b b' b'') (hb : b'.isIf = b.isIf)
    (hbr : b.isIf = true → br = true) : b''.isIf = false := by
  have hcase : ∀ x : Expr, x.isBraced = true → x.isIf = false := by
    intro x hx; cases x <;> simp_all [Expr.isBraced, Expr.isIf]
  unfold Body at h
  split at h
  · next hc =>
    rw [h, hb]
    rcases hc with hc | hc
    · exact hcase _ hc
    · cases hi : b.isIf with
      | false => rfl
      | true => rw [hbr hi] at hc; cases hc
  · rw [h]; rfl

/-- What `tidy` needs to know about a part. -/
structure Neat (p : Place) (e e' : Expr) : Prop where
  tidy : e'.tidy = true
  effects : e'.effects = true
  braced : e'.isBraced = e.isBraced
  isIf : e'.isIf = e.isIf
  branch : e.isIf = true → p.elseIf = true ∨ p.effect = true → e'.branchBraced = true
  other : e.isIf = false → e'.branchBraced = e.isBraced

theorem Neat.simple {p : Place} {e e' : Expr} (h1 : e'.tidy = true) (h2 : e'.effects = true)
    (h3 : e'.isBraced = e.isBraced) (h4 : e'.isIf = e.isIf) (h5 : e.isIf = false)
    (h6 : e'.branchBraced = e'.isBraced) : Neat p e e' :=
  ⟨h1, h2, h3, h4, (fun h => by rw [h5] at h; cases h), fun _ => h6.trans h3⟩

mutual
theorem neat (o : Opts) : ∀ (e e' : Expr) (p : Place), p.table = false →
    e.ordinary o = true → Becomes o p e e' →
    Neat p e e'
  | .atom a k t, e', p, hp, ho, h => by
    rw [Becomes] at h; subst h
    exact .simple rfl rfl rfl rfl rfl rfl
  | .str a op c cl, e', p, hp, ho, h => by
    rw [Becomes] at h; subst h
    exact .simple rfl rfl rfl rfl rfl rfl
  | .paren a l e r, e', p, hp, ho, h => by
    rw [Becomes] at h
    obtain ⟨x, hx, rfl⟩ := ordinary_stays h ho
    simp only [Expr.ordinary, Bool.and_eq_true] at ho
    have := neat o e x _ rfl ho.2 hx
    exact .simple this.tidy this.effects rfl rfl rfl rfl
  | .braced a l es r, e', p, hp, ho, h => by
    rw [Becomes] at h
    obtain ⟨xs, hx, rfl⟩ := ordinary_stays h ho
    simp only [Expr.ordinary, Bool.and_eq_true] at ho
    have := neats o es xs _ ho.2 hx
    exact .simple this.1 this.2.1 rfl rfl rfl rfl
  | .unary a op e, e', p, hp, ho, h => by
    rw [Becomes] at h
    obtain ⟨x, hx, rfl⟩ := ordinary_stays h ho
    simp only [Expr.ordinary, Bool.and_eq_true] at ho
    have := neat o e x _ rfl ho.2 hx
    exact .simple this.tidy this.effects rfl rfl rfl rfl
  | .binary a x op y, e', p, hp, ho, h => by
    rw [Becomes] at h
    obtain ⟨x', op', y', hx, hy, hop, rfl⟩ := ordinary_stays h ho
    simp only [Expr.ordinary, Bool.and_eq_true] at ho
    have h1 := neat o x x' _ rfl ho.1.2 hx
    have ha := ho.1.1
    simp only [Ann.ordinary, Bool.and_eq_true, Bool.not_eq_true'] at ha
    have h2 := neat o y y' _ (by simp [ha.2]) ho.2 hy
    exact .simple (by simp [Expr.tidy, h1.tidy, h2.tidy])
      (by simp [Expr.effects, h1.effects, h2.effects]) rfl rfl rfl rfl
  | .sel a k x op y, e', p, hp, ho, h => by
    rw [Becomes] at h
    obtain ⟨x', y', hx, hy, rfl⟩ := ordinary_stays h ho
    simp only [Expr.ordinary, Bool.and_eq_true] at ho
    have h1 := neat o x x' _ rfl ho.1.2 hx
    have h2 := neat o y y' _ rfl ho.2 hy
    exact .simple (by simp [Expr.tidy, h1.tidy, h2.tidy])
      (by simp [Expr.effects, h1.effects, h2.effects]) rfl rfl rfl rfl
  | .call a k f aa l items r, e', p, hp, ho, h => by
    rw [Becomes] at h
    obtain ⟨f', items', hf, hi, rfl⟩ := ordinary_stays h ho
    simp only [Expr.ordinary, Bool.and_eq_true] at ho
    have h1 := neat o f f' _ rfl ho.1.2 hf
    have hn : asksTable o true p.table a f = false := by
      have ha := ho.1.1.1
      have hl := ho.1.1.2
      rw [← isTable_eq, hp, Bool.false_or]
      rw [ordinary_dir ha _ (.inr rfl), Bool.false_or]
      exact (listed_setting (by simpa using hl)).2
    have h2 := neatItems o items items' ho.2
      (hi.elim id fun h => by rw [hn] at h; cases h.1)
    exact .simple (by simp [Expr.tidy, h1.tidy, h2.1])
      (by simp [Expr.effects, h1.effects, h2.2]) rfl rfl rfl rfl
  | .func a kw pa l items r b, e', p, hp, ho, h => by
    rw [Becomes] at h
    obtain ⟨items', b', b'', br, hi, hb, -, hB, rfl⟩ := ordinary_stays h ho
    simp only [Expr.ordinary, Bool.and_eq_true] at ho
    have h1 := neatItems o items items' ho.1.2 hi
    have h2 := neat o b b' _ rfl ho.2 hb
    exact .simple (by simp [Expr.tidy, h1.1, body_tidy hB, h2.tidy])
      (by simp [Expr.effects, h1.2, body_effects hB, h2.effects]) rfl rfl rfl rfl
  | .ite a kw l c r t, e', p, hp, ho, h => by
    rw [Becomes] at h
    obtain ⟨c', t', t'', br, hc, ht, hcr, hB, rfl⟩ := ordinary_stays h ho
    simp only [Expr.ordinary, Bool.and_eq_true] at ho
    have h1 := neat o c c' _ rfl ho.1.2 hc
    have h2 := neat o t t' _ rfl ho.2 ht
    have hif : t.isIf = true → br = true := by
      intro hi; exact hcr (by simp [criteria, hi])
    refine ⟨?_, ?_, rfl, rfl, ?_, (fun h => by cases h)⟩
    · simp [Expr.tidy, h1.tidy, body_tidy hB, h2.tidy, body_if hB h2.isIf hif]
    · simp [Expr.effects, h1.effects, body_effects hB, h2.effects]
    · intro _ hp
      show t''.isBraced = true
      rw [body_braced hB h2.braced, hcr (by rcases hp with hp | hp <;> simp [criteria, hp])]
      simp
  | .itee a kw l c r t ea el e, e', p, hp, ho, h => by
    rw [Becomes] at h
    obtain ⟨c', t', t'', x, x'', br, hc, ht, hx, hcr, hB, hX, rfl⟩ := ordinary_stays h ho
    simp only [Expr.ordinary, Bool.and_eq_true] at ho
    have h1 := neat o c c' _ rfl ho.1.1.2 hc
    have h2 := neat o t t' _ rfl ho.1.2 ht
    have h3 := neat o e x _ rfl ho.2 hx
    have hif : t.isIf = true → br = true := by
      intro hi; exact hcr (by simp [criteria, hi])
    have hbr : t.isBraced = true ∨ e.isBraced = true ∨ e.isIf = true → br = true := by
      intro hi; exact hcr (by rcases hi with hi | hi | hi <;> simp [criteria, hi])
    have ht'' : t''.isBraced = br := by
      rw [body_braced hB h2.braced]
      cases hb : t.isBraced with
      | false => rfl
      | true => rw [hbr (.inl hb)]; rfl
    have hx'' : x''.tidy = true ∧ x''.effects = true ∧ x''.branchBraced = br ∧
        (x''.isIf = true → br = true) := by
      split at hX
      · next hi =>
        rw [hX]
        refine ⟨h3.tidy, h3.effects, ?_, fun _ => hbr (.inr (.inr hi))⟩
        rw [h3.branch hi (.inl hi), hbr (.inr (.inr hi))]
      · next hi =>
        have hi' : e.isIf = false := by simpa using hi
        refine ⟨by rw [body_tidy hX, h3.tidy], by rw [body_effects hX, h3.effects], ?_, ?_⟩
        · unfold Body at hX
          split at hX
          · next hc =>
            rw [hX, h3.other hi']
            rcases hc with hc | hc
            · rw [hc, hbr (.inr (.inl hc))]
            · cases hb : e.isBraced with
              | false => exact hc.symm
              | true => exact (hbr (.inr (.inl hb))).symm
          · next hc =>
            rw [hX]
            cases hb : br with
            | false => exact absurd (.inr hb) hc
            | true => rfl
        · rw [body_if hX h3.isIf (by rw [hi']; intro h; cases h)]
          intro h; cases h
    refine ⟨?_, ?_, rfl, rfl, ?_, (fun h => by cases h)⟩
    · simp only [Expr.tidy, h1.tidy, body_tidy hB, h2.tidy, body_if hB h2.isIf hif, hx''.1, ht'',
        hx''.2.2.1]
      have := hx''.2.2.2
      cases hbv : br <;> cases hiv : x''.isIf <;> simp_all
    · simp [Expr.effects, h1.effects, body_effects hB, h2.effects, hx''.2.1]
    · intro _ hp
      show t''.isBraced = true
      rw [ht'', hcr (by rcases hp with hp | hp <;> simp [criteria, hp])]
  | .for_ a kw l v i s r b, e', p, hp, ho, h => by
    rw [Becomes] at h
    obtain ⟨v', s', b', b'', hv, hs, hb, hB, rfl⟩ := ordinary_stays h ho
    simp only [Expr.ordinary, Bool.and_eq_true] at ho
    have h1 := neat o v v' _ rfl ho.1.1.2 hv
    have h2 := neat o s s' _ rfl ho.1.2 hs
    have h3 := neat o b b' _ rfl ho.2 hb
    exact .simple (by simp [Expr.tidy, h1.tidy, h2.tidy, body_tidy hB, h3.tidy,
        body_braced hB h3.braced])
      (by simp [Expr.effects, h1.effects, h2.effects, body_effects hB, h3.effects]) rfl rfl rfl rfl
  | .while_ a kw l c r b, e', p, hp, ho, h => by
    rw [Becomes] at h
    obtain ⟨c', b', b'', hc, hb, hB, rfl⟩ := ordinary_stays h ho
    simp only [Expr.ordinary, Bool.and_eq_true] at ho
    have h1 := neat o c c' _ rfl ho.1.2 hc
    have h3 := neat o b b' _ rfl ho.2 hb
    exact .simple (by simp [Expr.tidy, h1.tidy, body_tidy hB, h3.tidy, body_braced hB h3.braced])
      (by simp [Expr.effects, h1.effects, body_effects hB, h3.effects]) rfl rfl rfl rfl
  | .repeat_ a kw b, e', p, hp, ho, h => by
    rw [Becomes] at h
    obtain ⟨b', b'', hb, hB, rfl⟩ := ordinary_stays h ho
    simp only [Expr.ordinary, Bool.and_eq_true] at ho
    have h3 := neat o b b' _ rfl ho.2 hb
    exact .simple (by simp [Expr.tidy, body_tidy hB, h3.tidy, body_braced hB h3.braced])
      (by simp [Expr.effects, body_effects hB, h3.effects]) rfl rfl rfl rfl
theorem neats (o : Opts) : ∀ (es es' : Exprs) (top : Bool), es.ordinary o = true →
    Becomess o top es es' → es'.tidy = true ∧ es'.effects top = true ∧ es'.length = es.length
  | .nil, es', top, ho, h => by
    rw [Becomess] at h; subst h
    exact ⟨rfl, rfl, rfl⟩
  | .cons e es, es', top, ho, h => by
    rw [Becomess] at h
    obtain ⟨x, xs, hx, hxs, rfl⟩ := h
    simp only [Exprs.ordinary, Bool.and_eq_true] at ho
    have h1 := neat o e x _ rfl ho.1 hx
    obtain ⟨i1, i2, i3⟩ := neats o es xs _ ho.2 hxs
    refine ⟨by simp [Exprs.tidy, h1.tidy, i1], ?_, by simp [Exprs.length, i3]⟩
    simp only [Exprs.effects, h1.effects, i2, i3, Bool.true_and]
    cases ht : (top || decide (0 < es.length)) with
    | false => simp
    | true =>
      unfold effectBraced
      rw [h1.isIf]
      cases hi : e.isIf with
      | false => rfl
      | true => rw [h1.branch hi (.inr ht)]; rfl
theorem neatItems (o : Opts) : ∀ (xs xs' : Items), xs.ordinary o = true →
    BecomesItems o xs xs' → xs'.tidy = true ∧ xs'.effects = true
  | .nil, xs', ho, h => by rw [BecomesItems] at h; subst h; exact ⟨rfl, rfl⟩
  | .last x, xs', ho, h => by
    rw [BecomesItems] at h
    obtain ⟨x', hx, rfl⟩ := h
    exact neatArg o x x' ho hx
  | .cons x s xs, xs', ho, h => by
    rw [BecomesItems] at h
    obtain ⟨x', ys, hx, hy, rfl⟩ := h
    simp only [Items.ordinary, Bool.and_eq_true] at ho
    have h1 := neatArg o x x' ho.1 hx
    have h2 := neatItems o xs ys ho.2 hy
    exact ⟨by simp [Items.tidy, h1.1, h2.1], by simp [Items.effects, h1.2, h2.2]⟩
theorem neatArg (o : Opts) : ∀ (x x' : Arg), x.ordinary o = true →
    BecomesArg o x x' → x'.tidy = true ∧ x'.effects = true
  | .hole a, x', ho, h => by rw [BecomesArg] at h; subst h; exact ⟨rfl, rfl⟩
  | .val a e, x', ho, h => by
    rw [BecomesArg] at h
    simp only [Arg.ordinary, Ann.ordinary, Bool.and_eq_true] at ho
    rcases h with ⟨hd, -⟩ | ⟨e', h1, rfl⟩
    · simp [hd] at ho
    · have := neat o e e' _ rfl ho.2 h1
      exact ⟨this.tidy, this.effects⟩
  | .name a na n q, x', ho, h => by
    rw [BecomesArg] at h
    simp only [Arg.ordinary, Ann.ordinary, Bool.and_eq_true] at ho
    rcases h with ⟨hd, -⟩ | ⟨e', h1, rfl⟩
    · simp [hd] at ho
    · have := neat o n e' _ rfl ho.2 h1
      exact ⟨this.tidy, this.effects⟩
  | .named a na n q e, x', ho, h => by
    rw [BecomesArg] at h
    simp only [Arg.ordinary, Ann.ordinary, Bool.and_eq_true] at ho
    rcases h with ⟨hd, -⟩ | ⟨n', e', h1, h2, rfl⟩
    · simp [hd] at ho
    · have i1 := neat o n n' _ rfl ho.1.2 h1
      have i2 := neat o e e' _ rfl ho.2 h2
      exact ⟨by simp [Arg.tidy, i1.tidy, i2.tidy], by simp [Arg.effects, i1.effects, i2.effects]⟩
  | .pdef a n da q e, x', ho, h => by
    rw [BecomesArg] at h
    simp only [Arg.ordinary, Ann.ordinary, Bool.and_eq_true] at ho
    rcases h with ⟨hd, -⟩ | ⟨n', e', h1, h2, rfl⟩
    · simp [hd] at ho
    · have i1 := neat o n n' _ rfl ho.1.2 h1
      have i2 := neat o e e' _ rfl ho.2 h2
      exact ⟨by simp [Arg.tidy, i1.tidy, i2.tidy], by simp [Arg.effects, i1.effects, i2.effects]⟩
end

/-! ## Existing braces -/

/-- Text of a token, with `=` and `<-` identified. -/
def opText (t : Token) : Tok := sameOp (outTok t)

theorem operator_text {o : Opts} {p : Place} {op op' : Token} (h : Operator o p op op') :
    opText op' = opText op := by
  unfold Operator at h
  split at h
  · next hk => rw [h]; simp [opText, outTok, sameOp, hk.1]
  · split at h
    · next hk => rw [h]; simp [opText, outTok, sameOp, hk.1]
    · rw [h]

theorem same_stays {o : Opts} {e e' : Expr} {P : Prop} (h : OrStays o e e' P)
    (hP : P → e'.tokens.map opText = e.tokens.map opText) :
    e'.tokens.map opText = e.tokens.map opText := by
  rcases h with ⟨-, rfl⟩ | h
  · rfl
  · exact hP h

theorem body_same {br : Bool} {b b' b'' : Expr} (h : Body br b b' b'') (hb : b.isBraced = true) :
    b'' = b' := by
  unfold Body at h
  rw [if_pos (.inl hb)] at h
  exact h

mutual
theorem same (o : Opts) : ∀ (e e' : Expr) (p : Place), e.allBraced = true → Becomes o p e e' →
    e'.tokens.map opText = e.tokens.map opText
  | .atom a k t, e', p, ha, h => by rw [Becomes] at h; rw [h]
  | .str a op c cl, e', p, ha, h => by rw [Becomes] at h; rw [h]
  | .paren a l e r, e', p, ha, h => by
    rw [Becomes] at h
    refine same_stays h ?_
    rintro ⟨x, hx, rfl⟩
    simp [Expr.tokens, same o e x _ ha hx]
  | .braced a l es r, e', p, ha, h => by
    rw [Becomes] at h
    refine same_stays h ?_
    rintro ⟨x, hx, rfl⟩
    simp [Expr.tokens, sames o es x _ ha hx]
  | .unary a op e, e', p, ha, h => by
    rw [Becomes] at h
    refine same_stays h ?_
    rintro ⟨x, hx, rfl⟩
    simp [Expr.tokens, same o e x _ ha hx]
  | .binary a x op y, e', p, ha, h => by
    rw [Becomes] at h
    refine same_stays h ?_
    rintro ⟨x', op', y', hx, hy, hop, rfl⟩
    simp only [Expr.allBraced, Bool.and_eq_true] at ha
    simp [Expr.tokens, same o x x' _ ha.1 hx, same o y y' _ ha.2 hy, operator_text hop]
  | .sel a k x op y, e', p, ha, h => by
    rw [Becomes] at h
    refine same_stays h ?_
    rintro ⟨x', y', hx, hy, rfl⟩
    simp only [Expr.allBraced, Bool.and_eq_true] at ha
    simp [Expr.tokens, same o x x' _ ha.1 hx, same o y y' _ ha.2 hy]
  | .call a k f aa l items r, e', p, ha, h => by
    rw [Becomes] at h
    refine same_stays h ?_
    rintro ⟨f', items', hf, hi, rfl⟩
    simp only [Expr.allBraced, Bool.and_eq_true] at ha
    have hi' : items'.tokens.map opText = items.tokens.map opText := by
      rcases hi with hi | ⟨-, rfl⟩
      · exact sameItems o items items' ha.2 hi
      · rfl
    simp [Expr.tokens, same o f f' _ ha.1 hf, hi']
  | .func a kw pa l items r b, e', p, ha, h => by
    rw [Becomes] at h
    refine same_stays h ?_
    rintro ⟨items', b', b'', br, hi, hb, -, hB, rfl⟩
    simp only [Expr.allBraced, Bool.and_eq_true] at ha
    rw [body_same hB ha.2]
    simp [Expr.tokens, sameItems o items items' ha.1.1 hi, same o b b' _ ha.1.2 hb]
  | .ite a kw l c r t, e', p, ha, h => by
    rw [Becomes] at h
    refine same_stays h ?_
    rintro ⟨c', t', t'', br, hc, ht, -, hB, rfl⟩
    simp only [Expr.allBraced, Bool.and_eq_true] at ha
    rw [body_same hB ha.2]
    simp [Expr.tokens, same o c c' _ ha.1.1 hc, same o t t' _ ha.1.2 ht]
  | .itee a kw l c r t ea el e, e', p, ha, h => by
    rw [Becomes] at h
    refine same_stays h ?_
    rintro ⟨c', t', t'', x, x'', br, hc, ht, hx, -, hB, hX, rfl⟩
    simp only [Expr.allBraced, Bool.and_eq_true, Bool.or_eq_true] at ha
    have hxx : x'' = x := by
      split at hX
      · exact hX
      · next hi => exact body_same hX (ha.2.resolve_right hi)
    rw [body_same hB ha.1.1.2, hxx]
    simp [Expr.tokens, same o c c' _ ha.1.1.1.1 hc, same o t t' _ ha.1.1.1.2 ht,
      same o e x _ ha.1.2 hx]
  | .for_ a kw l v i s r b, e', p, ha, h => by
    rw [Becomes] at h
    refine same_stays h ?_
    rintro ⟨v', s', b', b'', hv, hs, hb, hB, rfl⟩
    simp only [Expr.allBraced, Bool.and_eq_true] at ha
    rw [body_same hB ha.2]
    simp [Expr.tokens, same o v v' _ ha.1.1.1 hv, same o s s' _ ha.1.1.2 hs,
      same o b b' _ ha.1.2 hb]
  | .while_ a kw l c r b, e', p, ha, h => by
    rw [Becomes] at h
    refine same_stays h ?_
    rintro ⟨c', b', b'', hc, hb, hB, rfl⟩
    simp only [Expr.allBraced, Bool.and_eq_true] at ha
    rw [body_same hB ha.2]
    simp [Expr.tokens, same o c c' _ ha.1.1 hc, same o b b' _ ha.1.2 hb]
  | .repeat_ a kw b, e', p, ha, h => by
    rw [Becomes] at h
    refine same_stays h ?_
    rintro ⟨b', b'', hb, hB, rfl⟩
    simp only [Expr.allBraced, Bool.and_eq_true] at ha
    rw [body_same hB ha.2]
    simp [Expr.tokens, same o b b' _ ha.1 hb]
theorem sames (o : Opts) : ∀ (es es' : Exprs) (top : Bool), es.allBraced = true →
    Becomess o top es es' → es'.tokens.map opText = es.tokens.map opText
  | .nil, es', top, ha, h => by rw [Becomess] at h; rw [h]
  | .cons e es, es', top, ha, h => by
    rw [Becomess] at h
    obtain ⟨x, xs, hx, hxs, rfl⟩ := h
    simp only [Exprs.allBraced, Bool.and_eq_true] at ha
    simp [Exprs.tokens, same o e x _ ha.1 hx, sames o es xs _ ha.2 hxs]
theorem sameItems (o : Opts) : ∀ (xs xs' : Items), xs.allBraced = true →
    BecomesItems o xs xs' → xs'.tokens.map opText = xs.tokens.map opText
  | .nil, xs', ha, h => by rw [BecomesItems] at h; rw [h]
  | .last x, xs', ha, h => by
    rw [BecomesItems] at h
    obtain ⟨x', hx, rfl⟩ := h
    simp [Items.tokens, sameArg o x x' ha hx]
  | .cons x s xs, xs', ha, h => by
    rw [BecomesItems] at h
    obtain ⟨x', ys, hx, hy, rfl⟩ := h
    simp only [Items.allBraced, Bool.and_eq_true] at ha
    simp [Items.tokens, sameArg o x x' ha.1 hx, sameItems o xs ys ha.2 hy]
theorem sameArg (o : Opts) : ∀ (x x' : Arg), x.allBraced = true →
    BecomesArg o x x' → x'.tokens.map opText = x.tokens.map opText
  | .hole a, x', ha, h => by rw [BecomesArg] at h; rw [h]
  | .val a e, x', ha, h => by
    rw [BecomesArg] at h
    rcases h with ⟨-, rfl⟩ | ⟨e', h1, rfl⟩
    · rfl
    · simp [Arg.tokens, same o e e' _ ha h1]
  | .name a na n q, x', ha, h => by
    rw [BecomesArg] at h
    rcases h with ⟨-, rfl⟩ | ⟨n', h1, rfl⟩
    · rfl
    · simp [Arg.tokens, same o n n' _ ha h1]
  | .named a na n q e, x', ha, h => by
    rw [BecomesArg] at h
    simp only [Arg.allBraced, Bool.and_eq_true] at ha
    rcases h with ⟨-, rfl⟩ | ⟨n', e', h1, h2, rfl⟩
    · rfl
    · simp [Arg.tokens, same o n n' _ ha.1 h1, same o e e' _ ha.2 h2]
  | .pdef a n da q e, x', ha, h => by
    rw [BecomesArg] at h
    simp only [Arg.allBraced, Bool.and_eq_true] at ha
    rcases h with ⟨-, rfl⟩ | ⟨n', e', h1, h2, rfl⟩
    · rfl
    · simp [Arg.tokens, same o n n' _ ha.1 h1, same o e e' _ ha.2 h2]
end

end Verif.Format
