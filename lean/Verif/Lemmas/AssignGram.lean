import Verif.Spec.Assign
import Verif.Spec.Becomes
import Verif.Lemmas.Reader

/-!
# Rewritten programs are programs
-/

namespace Verif.Format
open Verif.Syntax

theorem binOp_four {k : Kind} {rm : Nat} {lv : Nat} (h : binOp k = some (lv, rm)) (h1 : 3 < rm) (h2 : rm < 5) :
    k = .assign ∨ k = .superAssign ∨ k = .walrus := by
  cases k <;> simp [binOp] at h <;> simp <;> omega

theorem binOp_le {k : Kind} {lv rm : Nat} (h : binOp k = some (lv, rm)) : lv ≤ rm ∧ rm ≤ lv + 1 := by
  cases k <;> simp [binOp] at h <;> omega

theorem binOp_big {k : Kind} {lv rm : Nat} (h : binOp k = some (lv, rm)) (hr : 3 < rm ∨ 4 ≤ lv) :
    4 ≤ lv ∧ opEq k = false ∧ k ≠ .equal := by
  cases k <;> simp [binOp] at h <;> simp [opEq] <;> omega

theorem unOp_not_four {k : Kind} {rm : Nat} (h : unOp k = some rm) : rm ≤ 3 ∨ 5 ≤ rm := by
  cases k <;> simp [unOp] at h <;> omega

theorem arrow_llow {e : Expr} (h : e.isArrow = true) : e.llow ≤ 4 := by
  cases e with
  | binary a x op y =>
    simp only [Expr.isArrow, Bool.or_eq_true, beq_iff_eq] at h
    rw [Expr.llow]
    rcases h with (h | h) | h <;> rw [h] <;> exact Nat.min_le_left ..
  | _ => cases h

/-- Only assignments to the left absorb operators of strength 4 but none of strength 3. -/
theorem cap_four : ∀ (e : Expr) (b : Bool), e.gram b = true → 3 < e.rcap → e.rcap < 5 →
    e.isArrow = true
  | .unary a op e, b, hg, h1, h2 => by
    simp only [Expr.gram] at hg
    cases hu : unOp op.kind with
    | none => rw [hu] at hg; cases hg
    | some rm =>
      rw [hu] at hg
      simp only [Bool.and_eq_true, decide_eq_true_eq] at hg
      simp only [Expr.rcap, hu, Option.getD_some] at h1 h2
      have := unOp_not_four hu
      have := arrow_llow (cap_four e _ hg.1 (by omega) (by omega))
      omega
  | .binary a x op y, b, hg, h1, h2 => by
    simp only [Expr.gram] at hg
    cases hb : binOp op.kind with
    | none => rw [hb] at hg; cases hg
    | some q =>
      obtain ⟨lv, rm⟩ := q
      rw [hb] at hg
      simp only [Bool.and_eq_true, decide_eq_true_eq] at hg
      simp only [Expr.rcap, hb, Option.getD_some] at h1 h2
      by_cases hr : rm < 5
      · have := binOp_four hb (by omega) hr
        simpa [Expr.isArrow, or_assoc] using this
      · have := arrow_llow (cap_four y _ hg.1.1.1.2 (by omega) (by omega))
        omega
  | .func a kw pa l items r bd, b, hg, h1, h2 => by simp only [Expr.rcap, bodyOp] at h1; omega
  | .ite a kw l c r t, b, hg, h1, h2 => by simp only [Expr.rcap, bodyOp] at h1; omega
  | .itee a kw l c r t ea el e, b, hg, h1, h2 => by simp only [Expr.rcap, bodyOp] at h1; omega
  | .for_ a kw l v i s r bd, b, hg, h1, h2 => by simp only [Expr.rcap, bodyOp] at h1; omega
  | .while_ a kw l c r bd, b, hg, h1, h2 => by simp only [Expr.rcap, bodyOp] at h1; omega
  | .repeat_ a kw bd, b, hg, h1, h2 => by simp only [Expr.rcap, bodyOp] at h1; omega
  | .atom .., b, hg, h1, h2 => by simp only [Expr.rcap, closed] at h2; omega
  | .str .., b, hg, h1, h2 => by simp only [Expr.rcap, closed] at h2; omega
  | .paren .., b, hg, h1, h2 => by simp only [Expr.rcap, closed] at h2; omega
  | .braced .., b, hg, h1, h2 => by simp only [Expr.rcap, closed] at h2; omega
  | .sel .., b, hg, h1, h2 => by simp only [Expr.rcap, closed] at h2; omega
  | .call .., b, hg, h1, h2 => by simp only [Expr.rcap, closed] at h2; omega

/-- An expression that does not absorb operators of strength 3 has none on its left edge. -/
theorem cap_low : ∀ (e : Expr) (b : Bool), e.gram b = true → 3 < e.rcap →
    4 ≤ e.llow ∧ e.gram false = true
  | .unary a op e, b, hg, h1 => ⟨by simp only [Expr.llow, closed]; omega, by simpa only [Expr.gram] using hg⟩
  | .binary a x op y, b, hg, h1 => by
    simp only [Expr.gram] at hg ⊢
    cases hb : binOp op.kind with
    | none => rw [hb] at hg; cases hg
    | some q =>
      obtain ⟨lv, rm⟩ := q
      rw [hb] at hg
      simp only [Bool.and_eq_true, decide_eq_true_eq] at hg
      simp only [Expr.rcap, hb, Option.getD_some] at h1
      obtain ⟨b1, b2, b3⟩ := binOp_big hb (.inl (by omega))
      simp only [b2, Bool.and_false] at hg ⊢
      refine ⟨?_, ?_⟩
      · have := (cap_low x _ hg.1.1.1.1 (by omega)).1
        simp only [Expr.llow, hb, Option.getD_some]
        omega
      · simp [hg.1.1.1.1, hg.1.1.1.2, hg.1.1.2, hg.1.2, b3]
  | .func a kw pa l items r bd, b, hg, h1 => by simp only [Expr.rcap, bodyOp] at h1; omega
  | .ite a kw l c r t, b, hg, h1 => by simp only [Expr.rcap, bodyOp] at h1; omega
  | .itee a kw l c r t ea el e, b, hg, h1 => by simp only [Expr.rcap, bodyOp] at h1; omega
  | .for_ a kw l v i s r bd, b, hg, h1 => by simp only [Expr.rcap, bodyOp] at h1; omega
  | .while_ a kw l c r bd, b, hg, h1 => by simp only [Expr.rcap, bodyOp] at h1; omega
  | .repeat_ a kw bd, b, hg, h1 => by simp only [Expr.rcap, bodyOp] at h1; omega
  | .atom .., b, hg, h1 => ⟨by simp only [Expr.llow, closed]; omega, by simpa only [Expr.gram] using hg⟩
  | .str .., b, hg, h1 => ⟨by simp only [Expr.llow, closed]; omega, by simpa only [Expr.gram] using hg⟩
  | .paren .., b, hg, h1 => ⟨by simp only [Expr.llow, closed]; omega, by simpa only [Expr.gram] using hg⟩
  | .braced .., b, hg, h1 => ⟨by simp only [Expr.llow, closed]; omega, by simpa only [Expr.gram] using hg⟩
  | .sel a .extract x op y, b, hg, h1 => by
    simp only [Expr.gram, Bool.and_eq_true, decide_eq_true_eq] at hg ⊢
    exact ⟨(cap_low x _ hg.1.1.1 (by rw [hg.1.1.2]; decide)).1, hg⟩
  | .sel a .namespace x op y, b, hg, h1 =>
    ⟨by simp only [Expr.llow, closed]; omega, by simpa only [Expr.gram] using hg⟩
  | .call a k f aa l items r, b, hg, h1 => by
    simp only [Expr.gram, Bool.and_eq_true, decide_eq_true_eq] at hg ⊢
    exact ⟨(cap_low f _ hg.1.1.1.1 (by rw [hg.1.1.1.2]; decide)).1, hg⟩

/-- Only assignments with `=` have operators of strength 3 on their left edge and none below. -/
theorem low_eq {e : Expr} {b : Bool} (hg : e.gram b = true) (h1 : 3 ≤ e.llow)
    (he : e.isEqual = false) : 4 ≤ e.llow ∧ e.gram false = true := by
  cases e with
  | binary a x op y =>
    simp only [Expr.gram] at hg ⊢
    cases hb : binOp op.kind with
    | none => rw [hb] at hg; cases hg
    | some q =>
      obtain ⟨lv, rm⟩ := q
      rw [hb] at hg
      simp only [Bool.and_eq_true, decide_eq_true_eq] at hg
      simp only [Expr.llow, hb, Option.getD_some] at h1 ⊢
      simp only [Expr.isEqual, beq_eq_false_iff_ne, ne_eq] at he
      have hlv : 4 ≤ lv := by
        have : lv ≠ 3 := by
          intro h3
          subst h3
          apply he
          revert hb
          generalize op.kind = k
          cases k <;> simp [binOp]
        omega
      obtain ⟨b1, b2, b3⟩ := binOp_big hb (.inr hlv)
      simp only [b2, Bool.and_false] at hg ⊢
      refine ⟨?_, ?_⟩
      · have := (cap_low x _ hg.1.1.1.1 (by omega)).1
        omega
      · simp [hg.1.1.1.1, hg.1.1.1.2, hg.1.1.2, hg.1.2, b3]
  | sel a k x op y =>
    cases k with
    | extract =>
      simp only [Expr.gram, Bool.and_eq_true, decide_eq_true_eq] at hg ⊢
      exact ⟨(cap_low x _ hg.1.1.1 (by rw [hg.1.1.2]; decide)).1, hg⟩
    | «namespace» => exact ⟨by simp only [Expr.llow, closed]; omega, by simpa only [Expr.gram] using hg⟩
  | call a k f aa l items r =>
    simp only [Expr.gram, Bool.and_eq_true, decide_eq_true_eq] at hg ⊢
    exact ⟨(cap_low f _ hg.1.1.1.1 (by rw [hg.1.1.1.2]; decide)).1, hg⟩
  | _ => exact ⟨by simp only [Expr.llow, closed]; omega, by simpa only [Expr.gram] using hg⟩

/-! ## Rewriting -/

/-- What is kept by rewriting: `e`, where `=` is allowed if `b`, has become `e'`. -/
structure Kept (o : Opts) (p : Place) (b : Bool) (e e' : Expr) : Prop where
  gram : e'.gram b = true
  low : ∀ k, (k = 4 → o.style = .equal → p.assign = false) → k ≤ e.llow → k ≤ e'.llow
  cap : ∀ k, (k = 4 → o.style = .equal → p.assign = false) → k ≤ e.rcap → k ≤ e'.rcap
  open_ : e'.openIf = true → e.openIf = true
  equal : o.style = .arrow → e.isEqual = true → asksSkip o true e = false →
    e'.gram false = true ∧ 4 ≤ e'.llow

theorem Kept.refl {o : Opts} {p : Place} {b : Bool} {e : Expr} (h : e.gram b = true)
    (hs : e.isEqual = true → asksSkip o true e = true) : Kept o p b e e :=
  ⟨h, fun _ _ h => h, fun _ _ h => h, id, fun _ h1 h2 => by rw [hs h1] at h2; cases h2⟩

/-- Other expressions. -/
theorem Kept.of {o : Opts} {p : Place} {b : Bool} {e e' : Expr} (h : e'.gram b = true)
    (h1 : ∀ k, (k = 4 → o.style = .equal → p.assign = false) → k ≤ e.llow → k ≤ e'.llow)
    (h2 : ∀ k, (k = 4 → o.style = .equal → p.assign = false) → k ≤ e.rcap → k ≤ e'.rcap)
    (h3 : e'.openIf = true → e.openIf = true) (he : e.isEqual = false) : Kept o p b e e' :=
  ⟨h, h1, h2, h3, fun _ h => by rw [he] at h; cases h⟩

theorem kept_or {o : Opts} {p : Place} {b : Bool} {e e' : Expr} {P : Prop} (h : OrStays o e e' P)
    (hg : e.gram b = true) (hP : P → Kept o p b e e') : Kept o p b e e' := by
  rcases h with ⟨h, rfl⟩ | h
  · exact .refl hg fun _ => h
  · exact hP h

/-- Names stay. -/
theorem simple_becomes {o : Opts} {p : Place} {e e' : Expr} (h : Becomes o p e e')
    (hs : e.selector = true ∨ e.argName = true ∨ e.parName = true) : e' = e := by
  cases e with
  | atom => exact h
  | str => exact h
  | _ => simp [Expr.selector, Expr.argName, Expr.parName] at hs

/-- Bodies. -/
theorem kept_body {o : Opts} {br : Bool} {b b' b'' : Expr} (h : Kept o .body true b b')
    (hl : bodyOp ≤ b.llow) (hB : Body br b b' b'') :
    b''.gram true = true ∧ bodyOp ≤ b''.llow ∧ (∀ k, k ≤ min bodyOp b.rcap → k ≤ min bodyOp b''.rcap) ∧
      (b''.openIf = true → b.openIf = true) := by
  unfold Body at hB
  split at hB
  · subst hB
    refine ⟨h.gram, h.low _ (fun h => absurd h (by decide)) hl, fun k hk => ?_, h.open_⟩
    have := h.cap k (fun h => by simp only [bodyOp] at hk; omega) (by omega)
    omega
  · subst hB
    refine ⟨?_, ?_, fun k hk => ?_, ?_⟩
    · simp [inBraces, Expr.gram, Exprs.gram, h.gram]
    · simp only [inBraces, Expr.llow]; decide
    · simp only [inBraces, Expr.rcap, closed]; simp only [bodyOp] at hk ⊢; omega
    · simp [inBraces, Expr.openIf]

theorem llow_le (e : Expr) : e.llow ≤ closed := by
  match e with
  | .binary a x op y => simp only [Expr.llow]; have := llow_le x; omega
  | .sel a .extract x op y => exact llow_le x
  | .sel a .namespace x op y => simp [Expr.llow]
  | .call a k f aa l items r => exact llow_le f
  | .atom .. | .str .. | .paren .. | .braced .. | .unary .. | .func .. | .ite .. | .itee ..
  | .for_ .. | .while_ .. | .repeat_ .. => simp [Expr.llow]

theorem rcap_le (e : Expr) : e.rcap ≤ closed := by
  match e with
  | .binary a x op y => simp only [Expr.rcap]; have := rcap_le y; omega
  | .unary a op y => simp only [Expr.rcap]; have := rcap_le y; omega
  | .func .. => simp only [Expr.rcap, bodyOp, closed]; omega
  | .ite .. => simp only [Expr.rcap, bodyOp, closed]; omega
  | .itee .. => simp only [Expr.rcap, bodyOp, closed]; omega
  | .for_ .. => simp only [Expr.rcap, bodyOp, closed]; omega
  | .while_ .. => simp only [Expr.rcap, bodyOp, closed]; omega
  | .repeat_ .. => simp only [Expr.rcap, bodyOp, closed]; omega
  | .atom .. | .str .. | .paren .. | .braced .. | .sel .. | .call .. => simp [Expr.rcap]

theorem Kept.closed {o : Opts} {p : Place} {b : Bool} {e e' : Expr} (h : Kept o p b e e')
    (hc : e.rcap = closed) : e'.rcap = closed := by
  have := h.cap Verif.Format.closed (fun h => absurd h (by decide)) (by omega)
  have := rcap_le e'
  omega

mutual
theorem kept_expr (o : Opts) : ∀ (e e' : Expr) (p : Place) (b : Bool), e.gram b = true →
    e.clear o = true → (o.style = .equal → p.assign = true → b = true) → Becomes o p e e' →
    Kept o p b e e'
  | .atom a k t, e', p, b, hg, hc, hb, h => by
    have h : e' = _ := h
    subst h
    exact .refl hg fun h => by cases h
  | .str a op c cl, e', p, b, hg, hc, hb, h => by
    have h : e' = _ := h
    subst h
    exact .refl hg fun h => by cases h
  | .paren a l e r, e', p, b, hg, hc, hb, h => by
    refine kept_or h hg ?_
    rintro ⟨x, hx, rfl⟩
    simp only [Expr.gram, Bool.and_eq_true] at hg
    have := kept_expr o e x .body true hg.1.2 hc (fun _ _ => rfl) hx
    refine .of ?_ (fun _ _ h => h) (fun _ _ h => h) id rfl
    simp [Expr.gram, hg.1.1, hg.2, this.gram]
  | .braced a l es r, e', p, b, hg, hc, hb, h => by
    refine kept_or h hg ?_
    rintro ⟨xs, hx, rfl⟩
    simp only [Expr.gram, Bool.and_eq_true] at hg
    have := kept_exprs o es xs false hg.1.2 hc hx
    refine .of ?_ (fun _ _ h => h) (fun _ _ h => h) id rfl
    simp [Expr.gram, hg.1.1, hg.2, this]
  | .unary a op e, e', p, b, hg, hc, hb, h => by
    refine kept_or h hg ?_
    rintro ⟨x, hx, rfl⟩
    simp only [Expr.gram] at hg
    cases hu : unOp op.kind with
    | none => rw [hu] at hg; cases hg
    | some rm =>
      rw [hu] at hg
      simp only [Bool.and_eq_true, decide_eq_true_eq] at hg
      have ih := kept_expr o e x { assign := op.kind == .wat } _ hg.1 hc (fun _ h => h) hx
      have h4 : rm ≠ 4 := by have := unOp_not_four hu; omega
      refine .of ?_ (fun _ _ h => h) (fun k hk h => ?_) ih.open_ rfl
      · simp only [Expr.gram, hu, Bool.and_eq_true, decide_eq_true_eq]
        exact ⟨ih.gram, ih.low _ (fun h => absurd h h4) hg.2⟩
      · simp only [Expr.rcap, hu, Option.getD_some] at h ⊢
        have : k ≤ x.rcap := by
          refine ih.cap k (fun h4 hs => ?_) (by omega)
          cases hw : op.kind == .wat with
          | false => rfl
          | true =>
            rw [beq_iff_eq] at hw
            rw [hw] at hu
            simp [unOp] at hu
            omega
        omega
  | .binary a x op y, e', p, b, hg, hc, hb, h => by
    refine kept_or h hg ?_
    rintro ⟨x', op', y', hx, hy, ho, rfl⟩
    simp only [Expr.gram] at hg
    simp only [Expr.clear, Bool.and_eq_true, Bool.not_eq_true', Bool.and_eq_false_iff,
      beq_eq_false_iff_ne, ne_eq] at hc
    obtain ⟨⟨⟨c1, c2⟩, c3⟩, c4⟩ := hc
    cases hop : binOp op.kind with
    | none => rw [hop] at hg; cases hg
    | some q =>
      obtain ⟨lv, rm⟩ := q
      rw [hop] at hg
      simp only [Bool.and_eq_true, decide_eq_true_eq, Bool.or_eq_true, bne_iff_ne, ne_eq] at hg
      obtain ⟨⟨⟨⟨g1, g2⟩, g3⟩, g4⟩, g5⟩ := hg
      have hx5 : op.kind = .equal → 5 ≤ x.rcap := by
        intro he
        have hlv : lv = 3 := by rw [he] at hop; simp [binOp] at hop; omega
        rcases c3 with c3 | c3
        · exact absurd he c3
        · apply Nat.le_of_not_lt
          intro hlt
          rw [cap_four x _ g1 (by omega) hlt] at c3
          cases c3
      unfold Operator at ho
      split at ho
      · next hc =>
        obtain ⟨he, hs⟩ := hc
        subst ho
        rw [he] at hop
        simp only [binOp, Option.some.injEq, Prod.mk.injEq] at hop
        obtain ⟨rfl, rfl⟩ := hop
        have hbt : b = true := g5.resolve_left fun h => h he
        have hx5 := hx5 he
        obtain ⟨x1, x2⟩ := cap_low x _ g1 (by omega)
        have kx := kept_expr o x x' _ false x2 c1 (fun h => by rw [hs] at h; cases h) hx
        have hns : ∀ k : Nat, ∀ q : Place, k = 4 → o.style = .equal → q.assign = false := by
          intro k q _ h; rw [hs] at h; cases h
        have ky : y'.gram false = true ∧ 4 ≤ y'.llow ∧ (∀ k, k ≤ y.rcap → k ≤ y'.rcap) ∧
            (y'.openIf = true → y.openIf = true) := by
          cases hy3 : y.isEqual with
          | true =>
            have hsk : asksSkip o true y = false := by
              rcases c4 with c4 | c4
              · rcases c4 with c4 | c4
                · rcases c4 with c4 | c4
                  · exact absurd he c4
                  · exact absurd hs c4
                · rw [hy3] at c4; cases c4
              · exact c4
            have ky := kept_expr o y y' _ _ g2 c2 (fun h => by rw [hs] at h; cases h) hy
            exact ⟨(ky.equal hs hy3 hsk).1, (ky.equal hs hy3 hsk).2, fun k => ky.cap k (hns k _),
              ky.open_⟩
          | false =>
            obtain ⟨y1, y2⟩ := low_eq g2 g4 hy3
            have ky := kept_expr o y y' _ false y2 c2 (fun h => by rw [hs] at h; cases h) hy
            exact ⟨ky.gram, ky.low 4 (hns 4 _) y1, fun k => ky.cap k (hns k _), ky.open_⟩
        obtain ⟨ky1, ky2, ky3, ky4⟩ := ky
        have kx4 := kx.low 4 (hns 4 _) x1
        have kx5 := kx.cap 5 (hns 5 _) hx5
        have hgr : (Expr.binary a x' ⟨.assign, [], [60, 45], []⟩ y').gram false = true := by
          simp only [Expr.gram, binOp, opEq, Bool.and_false, kx.gram, ky1]
          simp
          omega
        refine ⟨gram_mono _ hgr b, fun k hk h => ?_, fun k hk h => ?_, ky4, fun _ _ _ => ⟨hgr, ?_⟩⟩
        · simp only [Expr.llow, he, binOp, Option.getD_some] at h ⊢; omega
        · simp only [Expr.rcap, he, binOp, Option.getD_some] at h ⊢
          have := ky3 k (by omega)
          omega
        · simp only [Expr.llow, binOp, Option.getD_some]; omega
      · next hnot =>
        split at ho
        · next hc =>
          obtain ⟨he, hs, hp⟩ := hc
          subst ho
          have hbt : b = true := hb hs hp
          subst hbt
          rw [he] at hop g1 g2
          simp only [binOp, Option.some.injEq, Prod.mk.injEq] at hop
          obtain ⟨rfl, rfl⟩ := hop
          have kx := kept_expr o x x' _ true (gram_mono _ g1 _) c1 (fun _ _ => rfl) hx
          have ky := kept_expr o y y' _ true (gram_mono _ g2 _) c2 (fun _ _ => rfl) hy
          have kx5 := kx.cap 5 (by omega) g3
          have ky3 := ky.low 3 (by omega) (by omega)
          have hk4 : ∀ k, (k = 4 → o.style = .equal → p.assign = false) → k ≠ 4 := by
            intro k h h4
            have := h h4 hs
            rw [hp] at this
            cases this
          refine ⟨?_, fun k hk h => ?_, fun k hk h => ?_, ky.open_, fun h => by rw [hs] at h; cases h⟩
          · simp only [Expr.gram, binOp, opEq, Bool.and_self, kx.gram, ky.gram]
            simp
            omega
          · have hk := hk4 k hk
            simp only [Expr.llow, he, binOp, Option.getD_some] at h ⊢
            have := kx.low k (fun h => absurd h hk) (by omega)
            omega
          · have hk := hk4 k hk
            simp only [Expr.rcap, he, binOp, Option.getD_some] at h ⊢
            have := ky.cap k (fun h => absurd h hk) (by omega)
            omega
        · next hnot' =>
          subst ho
          have hpl : o.style = .equal → (p.operand op'.kind).assign = true →
              (b && opEq op'.kind) = true := by
            intro hs ha
            simp only [Place.operand, Bool.and_eq_true, Bool.or_eq_true, beq_iff_eq] at ha
            rcases ha with ⟨ha, (ha' | ha') | ha'⟩
            · simp [hb hs ha, ha', opEq]
            · exact absurd ⟨ha', hs, ha⟩ hnot'
            · simp [hb hs ha, ha', opEq]
          have kx := kept_expr o x x' _ _ g1 c1 hpl hx
          have ky := kept_expr o y y' { p.operand op'.kind with
            table := assigns op'.kind && a.asks o .table } _ g2 c2 hpl hy
          have hside : p.assign = false → (p.operand op'.kind).assign = false := by
            intro h; simp [Place.operand, h]
          have hx' : lv < x'.rcap := by
            by_cases h3 : lv = 3
            · have heq : op'.kind = .equal := by
                subst h3
                revert hop
                generalize op'.kind = k
                cases k <;> simp [binOp]
              have := kx.cap 5 (by omega) (hx5 heq)
              omega
            · exact kx.cap (lv + 1) (by omega) g3
          have hy' : rm ≤ y'.llow := by
            refine ky.low rm (fun h4 hs => ?_) g4
            rcases binOp_four hop (by omega) (by omega) with h | h | h
            · cases hp : p.assign with
              | false => exact hside hp
              | true => exact absurd ⟨h, hs, hp⟩ hnot'
            · simp [Place.operand, h]
            · simp [Place.operand, h]
          refine ⟨?_, fun k hk h => ?_, fun k hk h => ?_, ky.open_, fun hs he => ?_⟩
          · simp only [Expr.gram, hop, kx.gram, ky.gram, hx', hy', decide_true, Bool.true_and]
            simpa using g5
          · simp only [Expr.llow, hop, Option.getD_some] at h ⊢
            have := kx.low k (fun h h' => hside (hk h h')) (by omega)
            omega
          · simp only [Expr.rcap, hop, Option.getD_some] at h ⊢
            have := ky.cap k (fun h h' => hside (hk h h')) (by omega)
            omega
          · simp only [Expr.isEqual, beq_iff_eq] at he
            exact absurd ⟨he, hs⟩ hnot
  | .sel a .extract x op y, e', p, b, hg, hc, hb, h => by
    refine kept_or h hg ?_
    rintro ⟨x', y', hx, hy, rfl⟩
    simp only [Expr.gram, Bool.and_eq_true, decide_eq_true_eq] at hg
    simp only [Expr.clear, Bool.and_eq_true] at hc
    have ih := kept_expr o x x' {} false hg.1.1.1 hc.1 (fun _ h => h) hx
    rw [simple_becomes hy (.inl hg.2)]
    refine .of ?_ (fun k hk h => ih.low k (fun _ _ => rfl) h) (fun _ _ h => h) id rfl
    simp [Expr.gram, ih.gram, ih.closed hg.1.1.2, hg.1.2, hg.2]
  | .sel a .namespace x op y, e', p, b, hg, hc, hb, h => by
    refine kept_or h hg ?_
    rintro ⟨x', y', hx, hy, rfl⟩
    have hg' := hg
    simp only [Expr.gram, Bool.and_eq_true, decide_eq_true_eq] at hg
    rw [simple_becomes hx (.inl hg.1.1), simple_becomes hy (.inl hg.2)]
    exact .of hg' (fun _ _ h => h) (fun _ _ h => h) id rfl
  | .call a k f aa l items r, e', p, b, hg, hc, hb, h => by
    refine kept_or h hg ?_
    rintro ⟨f', items', hf, hi, rfl⟩
    simp only [Expr.gram, Bool.and_eq_true, decide_eq_true_eq] at hg
    simp only [Expr.clear, Bool.and_eq_true] at hc
    have ih := kept_expr o f f' {} false hg.1.1.1.1 hc.1 (fun _ h => h) hf
    refine .of ?_ (fun k hk h => ih.low k (fun _ _ => rfl) h) (fun _ _ h => h) id rfl
    have hi' : items'.gramArgs true = true := by
      rcases hi with hi | ⟨-, rfl⟩
      · exact kept_args o items items' true hg.1.2 hc.2 hi
      · exact hg.1.2
    simp [Expr.gram, ih.gram, ih.closed hg.1.1.1.2, hg.1.1.2, hi', hg.2]
  | .func a kw pa l items r bd, e', p, b, hg, hc, hb, h => by
    refine kept_or h hg ?_
    rintro ⟨items', b', b'', br, hi, hb', hbr, hB, rfl⟩
    simp only [Expr.gram, Bool.and_eq_true, decide_eq_true_eq] at hg
    simp only [Expr.clear, Bool.and_eq_true] at hc
    have ih := kept_expr o bd b' .body true hg.1.2 hc.2 (fun _ _ => rfl) hb'
    obtain ⟨k1, k2, k3, k4⟩ := kept_body ih hg.2 hB
    have hi' := kept_pars o items items' hg.1.1.1.2 hc.1 hi
    refine .of ?_ (fun _ _ h => h) (fun k hk h => k3 k h) k4 rfl
    simp only [Expr.gram, Bool.and_eq_true, decide_eq_true_eq]
    exact ⟨⟨⟨⟨hg.1.1.1.1, hi'⟩, hg.1.1.2⟩, k1⟩, k2⟩
  | .ite a kw l c r t, e', p, b, hg, hc, hb, h => by
    refine kept_or h hg ?_
    rintro ⟨c', t', t'', br, hc', ht', hbr, hB, rfl⟩
    simp only [Expr.gram, Bool.and_eq_true, decide_eq_true_eq] at hg
    simp only [Expr.clear, Bool.and_eq_true] at hc
    have ihc := kept_expr o c c' {} false hg.1.1.1.2 hc.1 (fun _ h => h) hc'
    have ih := kept_expr o t t' .body true hg.1.2 hc.2 (fun _ _ => rfl) ht'
    obtain ⟨k1, k2, k3, k4⟩ := kept_body ih hg.2 hB
    refine .of ?_ (fun _ _ h => h) (fun k hk h => k3 k h) (fun _ => rfl) rfl
    simp only [Expr.gram, Bool.and_eq_true, decide_eq_true_eq]
    exact ⟨⟨⟨⟨hg.1.1.1.1, ihc.gram⟩, hg.1.1.2⟩, k1⟩, k2⟩
  | .itee a kw l c r t ea el e, e', p, b, hg, hc, hb, h => by
    refine kept_or h hg ?_
    rintro ⟨c', t', t'', x, x'', br, hc', ht', hx, hbr, hB, hB', rfl⟩
    simp only [Expr.gram, Bool.and_eq_true, decide_eq_true_eq, Bool.not_eq_true'] at hg
    simp only [Expr.clear, Bool.and_eq_true] at hc
    obtain ⟨⟨⟨⟨⟨⟨g1, g2⟩, g3⟩, g4⟩, g5⟩, g6⟩, g7⟩ := hg
    have ihc := kept_expr o c c' {} false g1.1.2 hc.1.1 (fun _ h => h) hc'
    have ih := kept_expr o t t' .body true g2 hc.1.2 (fun _ _ => rfl) ht'
    have ihx := kept_expr o e x { Place.body with elseIf := e.isIf } true g6 hc.2 (fun _ _ => rfl) hx
    obtain ⟨k1, k2, k3, k4⟩ := kept_body ih g3 hB
    have ihx' : Kept o .body true e x := ⟨ihx.gram, ihx.low, ihx.cap, ihx.open_, ihx.equal⟩
    have hB2 : ∃ br', Body br' e x x'' := by
      split at hB'
      · exact ⟨false, by rw [Body, if_pos (.inr rfl)]; exact hB'⟩
      · exact ⟨br, hB'⟩
    obtain ⟨br', hB2⟩ := hB2
    obtain ⟨l1, l2, l3, l4⟩ := kept_body ihx' g7 hB2
    refine .of ?_ (fun _ _ h => h) (fun k hk h => l3 k h) l4 rfl
    simp only [Expr.gram, Bool.and_eq_true, decide_eq_true_eq, Bool.not_eq_true']
    refine ⟨⟨⟨⟨⟨⟨⟨⟨g1.1.1, ihc.gram⟩, g1.2⟩, k1⟩, k2⟩, ?_⟩, g5⟩, l1⟩, l2⟩
    cases ht : t''.openIf with
    | false => rfl
    | true => rw [k4 ht] at g4; cases g4
  | .for_ a kw l v i s r bd, e', p, b, hg, hc, hb, h => by
    refine kept_or h hg ?_
    rintro ⟨v', s', b', b'', hv, hs, hb', hB, rfl⟩
    simp only [Expr.gram, Bool.and_eq_true, decide_eq_true_eq] at hg
    simp only [Expr.clear, Bool.and_eq_true] at hc
    have ihs := kept_expr o s s' {} false hg.1.1.1.2 hc.1.2 (fun _ h => h) hs
    have ih := kept_expr o bd b' .body true hg.1.2 hc.2 (fun _ _ => rfl) hb'
    obtain ⟨k1, k2, k3, k4⟩ := kept_body ih hg.2 hB
    rw [simple_becomes hv (.inr (.inr hg.1.1.1.1.1.2))]
    refine .of ?_ (fun _ _ h => h) (fun k hk h => k3 k h) k4 rfl
    simp only [Expr.gram, Bool.and_eq_true, decide_eq_true_eq]
    exact ⟨⟨⟨⟨hg.1.1.1.1, ihs.gram⟩, hg.1.1.2⟩, k1⟩, k2⟩
  | .while_ a kw l c r bd, e', p, b, hg, hc, hb, h => by
    refine kept_or h hg ?_
    rintro ⟨c', t', t'', hc', ht', hB, rfl⟩
    simp only [Expr.gram, Bool.and_eq_true, decide_eq_true_eq] at hg
    simp only [Expr.clear, Bool.and_eq_true] at hc
    have ihc := kept_expr o c c' {} false hg.1.1.1.2 hc.1 (fun _ h => h) hc'
    have ih := kept_expr o bd t' .body true hg.1.2 hc.2 (fun _ _ => rfl) ht'
    obtain ⟨k1, k2, k3, k4⟩ := kept_body ih hg.2 hB
    refine .of ?_ (fun _ _ h => h) (fun k hk h => k3 k h) k4 rfl
    simp only [Expr.gram, Bool.and_eq_true, decide_eq_true_eq]
    exact ⟨⟨⟨⟨hg.1.1.1.1, ihc.gram⟩, hg.1.1.2⟩, k1⟩, k2⟩
  | .repeat_ a kw bd, e', p, b, hg, hc, hb, h => by
    refine kept_or h hg ?_
    rintro ⟨t', t'', ht', hB, rfl⟩
    simp only [Expr.gram, Bool.and_eq_true, decide_eq_true_eq] at hg
    have ih := kept_expr o bd t' .body true hg.1.2 hc (fun _ _ => rfl) ht'
    obtain ⟨k1, k2, k3, k4⟩ := kept_body ih hg.2 hB
    refine .of ?_ (fun _ _ h => h) (fun k hk h => k3 k h) k4 rfl
    simp only [Expr.gram, Bool.and_eq_true, decide_eq_true_eq]
    exact ⟨⟨hg.1.1, k1⟩, k2⟩
theorem kept_exprs (o : Opts) : ∀ (es es' : Exprs) (top : Bool), es.gram = true →
    es.clear o = true → Becomess o top es es' → es'.gram = true
  | .nil, es', top, hg, hc, h => by
    have h : es' = _ := h
    rw [h]; rfl
  | .cons e es, es', top, hg, hc, h => by
    obtain ⟨x, xs, hx, hxs, rfl⟩ := h
    simp only [Exprs.gram, Exprs.clear, Bool.and_eq_true] at hg hc ⊢
    exact ⟨(kept_expr o e x _ true hg.1 hc.1 (fun _ _ => rfl) hx).gram,
      kept_exprs o es xs top hg.2 hc.2 hxs⟩
theorem kept_args (o : Opts) : ∀ (xs xs' : Items) (first : Bool), xs.gramArgs first = true →
    xs.clear o = true → BecomesItems o xs xs' → xs'.gramArgs first = true
  | .nil, xs', first, hg, hc, h => by
    have h : xs' = _ := h
    rw [h]; exact hg
  | .last x, xs', first, hg, hc, h => by
    obtain ⟨x', hx, rfl⟩ := h
    simp only [Items.gramArgs, Bool.and_eq_true] at hg ⊢
    obtain ⟨k1, k2⟩ := kept_arg o x x' hg.1 hc hx
    rw [k2]
    exact ⟨k1, hg.2⟩
  | .cons x s xs, xs', first, hg, hc, h => by
    obtain ⟨x', ys, hx, hxs, rfl⟩ := h
    simp only [Items.gramArgs, Items.clear, Bool.and_eq_true] at hg hc ⊢
    exact ⟨⟨(kept_arg o x x' hg.1.1 hc.1 hx).1, hg.1.2⟩, kept_args o xs ys false hg.2 hc.2 hxs⟩
theorem kept_arg (o : Opts) : ∀ (x x' : Arg), x.gramArg = true → x.clear o = true →
    BecomesArg o x x' → x'.gramArg = true ∧ x'.isHole = x.isHole
  | .hole a, x', hg, hc, h => by
    have h : x' = _ := h
    subst h
    exact ⟨hg, rfl⟩
  | .val a e, x', hg, hc, h => by
    rcases h with ⟨-, rfl⟩ | ⟨e', he, rfl⟩
    · exact ⟨hg, rfl⟩
    · exact ⟨(kept_expr o e e' {} false hg hc (fun _ h => h) he).gram, rfl⟩
  | .name a na n q, x', hg, hc, h => by
    rcases h with ⟨-, rfl⟩ | ⟨n', hn, rfl⟩
    · exact ⟨hg, rfl⟩
    · have hg' := hg
      simp only [Arg.gramArg, Bool.and_eq_true] at hg
      rw [simple_becomes hn (.inr (.inl hg.1))]
      exact ⟨hg', rfl⟩
  | .named a na n q e, x', hg, hc, h => by
    rcases h with ⟨-, rfl⟩ | ⟨n', e', hn, he, rfl⟩
    · exact ⟨hg, rfl⟩
    · simp only [Arg.gramArg, Arg.clear, Bool.and_eq_true] at hg hc ⊢
      rw [simple_becomes hn (.inr (.inl hg.1.1))]
      exact ⟨⟨hg.1, (kept_expr o e e' {} false hg.2 hc.2 (fun _ h => h) he).gram⟩, rfl⟩
  | .pdef .., x', hg, hc, h => by cases hg
theorem kept_pars (o : Opts) : ∀ (xs xs' : Items), xs.gramPars = true →
    xs.clear o = true → BecomesItems o xs xs' → xs'.gramPars = true
  | .nil, xs', hg, hc, h => by
    have h : xs' = _ := h
    rw [h]; exact hg
  | .last x, xs', hg, hc, h => by
    obtain ⟨x', hx, rfl⟩ := h
    exact kept_par o x x' hg hc hx
  | .cons x s xs, xs', hg, hc, h => by
    obtain ⟨x', ys, hx, hxs, rfl⟩ := h
    simp only [Items.gramPars, Items.clear, Bool.and_eq_true] at hg hc ⊢
    exact ⟨⟨kept_par o x x' hg.1.1 hc.1 hx, hg.1.2⟩, kept_pars1 o xs ys hg.2 hc.2 hxs⟩
theorem kept_pars1 (o : Opts) : ∀ (xs xs' : Items), xs.gramPars1 = true →
    xs.clear o = true → BecomesItems o xs xs' → xs'.gramPars1 = true
  | .nil, xs', hg, hc, h => by cases hg
  | .last x, xs', hg, hc, h => by
    obtain ⟨x', hx, rfl⟩ := h
    exact kept_par o x x' hg hc hx
  | .cons x s xs, xs', hg, hc, h => by
    obtain ⟨x', ys, hx, hxs, rfl⟩ := h
    simp only [Items.gramPars1, Items.clear, Bool.and_eq_true] at hg hc ⊢
    exact ⟨⟨kept_par o x x' hg.1.1 hc.1 hx, hg.1.2⟩, kept_pars1 o xs ys hg.2 hc.2 hxs⟩
theorem kept_par (o : Opts) : ∀ (x x' : Arg), x.gramPar = true → x.clear o = true →
    BecomesArg o x x' → x'.gramPar = true
  | .val a e, x', hg, hc, h => by
    rcases h with ⟨-, rfl⟩ | ⟨e', he, rfl⟩
    · exact hg
    · rw [simple_becomes he (.inr (.inr hg))]
      exact hg
  | .pdef a n da q e, x', hg, hc, h => by
    rcases h with ⟨-, rfl⟩ | ⟨n', e', hn, he, rfl⟩
    · exact hg
    · simp only [Arg.gramPar, Arg.clear, Bool.and_eq_true] at hg hc ⊢
      rw [simple_becomes hn (.inr (.inr hg.1.1))]
      exact ⟨hg.1, (kept_expr o e e' {} false hg.2 hc.2 (fun _ h => h) he).gram⟩
  | .hole .., x', hg, hc, h => by cases hg
  | .name .., x', hg, hc, h => by cases hg
  | .named .., x', hg, hc, h => by cases hg
end

end Verif.Format
