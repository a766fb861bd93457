import Verif.Lemmas.Contexts

/-!
# What is known of programs with a gap
-/

namespace Verif.Format
open Verif.Syntax

mutual
theorem InExpr.llow {A B C} : InExpr A C B → (m m' : Exprs) → (C m).llow = (C m').llow
  | .binaryL _ _ _ h, m, m' => by simp [Expr.llow, InExpr.llow h m m']
  | .sel _ k _ _ h, m, m' => by cases k <;> simp [Expr.llow, InExpr.llow h m m']
  | .callF _ _ _ _ _ _ h, m, m' => by simp [Expr.llow, InExpr.llow h m m']
  | .binaryR _ _ _ h, m, m' => by simp [Expr.llow]
  | .callA _ _ _ _ _ _ h, m, m' => by simp [Expr.llow]
  | .paren .., _, _ | .braced .., _, _ | .unary .., _, _ | .funcP .., _, _ | .funcB .., _, _ | .iteC .., _, _
  | .iteT .., _, _ | .iteeC .., _, _ | .iteeT .., _, _ | .iteeE .., _, _ | .forS .., _, _ | .forB .., _, _
  | .whileC .., _, _ | .whileB .., _, _ | .repeat_ .., _, _ => rfl
end

theorem InExpr.rcap {A B C} : InExpr A C B → (m m' : Exprs) → (C m).rcap = (C m').rcap
  | .unary _ _ h, m, m' | .binaryR _ _ _ h, m, m' | .funcB _ _ _ _ _ _ h, m, m' | .iteT _ _ _ _ _ h, m, m'
  | .iteeE _ _ _ _ _ _ _ _ h, m, m' | .forB _ _ _ _ _ _ _ h, m, m' | .whileB _ _ _ _ _ h, m, m'
  | .repeat_ _ _ h, m, m' => by simp [Expr.rcap, InExpr.rcap h m m']
  | .binaryL .., _, _ | .sel .., _, _ | .callF .., _, _ | .callA .., _, _
  | .paren .., _, _ | .braced .., _, _ | .funcP .., _, _ | .iteC .., _, _
  | .iteeC .., _, _ | .iteeT .., _, _ | .forS .., _, _
  | .whileC .., _, _  => rfl

theorem InExpr.openIf {A B C} : InExpr A C B → (m m' : Exprs) → (C m).openIf = (C m').openIf
  | .unary _ _ h, m, m' | .binaryR _ _ _ h, m, m' | .funcB _ _ _ _ _ _ h, m, m'
  | .iteeE _ _ _ _ _ _ _ _ h, m, m' | .forB _ _ _ _ _ _ _ h, m, m' | .whileB _ _ _ _ _ h, m, m'
  | .repeat_ _ _ h, m, m' => by simp [Expr.openIf, InExpr.openIf h m m']
  | .binaryL .., _, _ | .sel .., _, _ | .callF .., _, _ | .callA .., _, _ | .iteT .., _, _
  | .paren .., _, _ | .braced .., _, _ | .funcP .., _, _ | .iteC .., _, _
  | .iteeC .., _, _ | .iteeT .., _, _ | .forS .., _, _
  | .whileC .., _, _  => rfl

theorem InExpr.noName {A B C} (h : InExpr A C B) (m : Exprs) :
    (C m).selector = false ∧ (C m).argName = false ∧ (C m).parName = false ∧ (C m).isName = false := by
  cases h <;> exact ⟨rfl, rfl, rfl, rfl⟩

theorem InArg.isHole {A B C} (h : InArg A C B) (m : Exprs) : (C m).isHole = false := by
  cases h <;> rfl

/-! ## The grammar -/

mutual
theorem InExpr.gram {A B C} : InExpr A C B → {eq : Bool} → {m : Exprs} → (C m).gram eq = true →
    m.gram = true ∧ ∀ m' : Exprs, m'.gram = true → (C m').gram eq = true
  | .paren _ _ _ h, _, m, hg => by
    simp only [Expr.gram, Bool.and_eq_true] at hg ⊢
    exact ⟨(InExpr.gram h hg.1.2).1, fun m' h' => ⟨⟨hg.1.1, (InExpr.gram h hg.1.2).2 m' h'⟩, hg.2⟩⟩
  | .braced _ _ _ _ _ h, _, m, hg => by
    simp only [Expr.gram, Bool.and_eq_true] at hg ⊢
    exact ⟨(InExprs.gram h hg.1.2).1, fun m' h' => ⟨⟨hg.1.1, (InExprs.gram h hg.1.2).2 m' h'⟩, hg.2⟩⟩
  | .unary _ p h, _, m, hg => by
    simp only [Expr.gram] at hg ⊢
    cases hu : unOp p.kind with
    | none => simp [hu] at hg
    | some rm =>
      simp only [hu, Bool.and_eq_true] at hg ⊢
      exact ⟨(InExpr.gram h hg.1).1, fun m' h' => ⟨(InExpr.gram h hg.1).2 m' h', by
        rw [InExpr.llow h m' m]; exact hg.2⟩⟩
  | .binaryL _ p _ h, _, m, hg => by
    simp only [Expr.gram] at hg ⊢
    cases hu : binOp p.kind with
    | none => simp [hu] at hg
    | some rm =>
      simp only [hu, Bool.and_eq_true] at hg ⊢
      exact ⟨(InExpr.gram h hg.1.1.1.1).1, fun m' h' => by
        rw [InExpr.rcap h m' m]; exact ⟨⟨⟨⟨(InExpr.gram h hg.1.1.1.1).2 m' h', hg.1.1.1.2⟩, hg.1.1.2⟩, hg.1.2⟩, hg.2⟩⟩
  | .binaryR _ _ p h, _, m, hg => by
    simp only [Expr.gram] at hg ⊢
    cases hu : binOp p.kind with
    | none => simp [hu] at hg
    | some rm =>
      simp only [hu, Bool.and_eq_true] at hg ⊢
      exact ⟨(InExpr.gram h hg.1.1.1.2).1, fun m' h' => by
        rw [InExpr.llow h m' m]; exact ⟨⟨⟨⟨hg.1.1.1.1, (InExpr.gram h hg.1.1.1.2).2 m' h'⟩, hg.1.1.2⟩, hg.1.2⟩, hg.2⟩⟩
  | .sel _ .extract _ _ h, _, m, hg => by
    simp only [Expr.gram, Bool.and_eq_true] at hg ⊢
    exact ⟨(InExpr.gram h hg.1.1.1).1, fun m' h' => by
      rw [InExpr.rcap h m' m]; exact ⟨⟨⟨(InExpr.gram h hg.1.1.1).2 m' h', hg.1.1.2⟩, hg.1.2⟩, hg.2⟩⟩
  | .sel _ .namespace _ _ h, _, m, hg => by
    simp [Expr.gram, (InExpr.noName h m).1] at hg
  | .callF _ _ _ _ _ _ h, _, m, hg => by
    simp only [Expr.gram, Bool.and_eq_true] at hg ⊢
    exact ⟨(InExpr.gram h hg.1.1.1.1).1, fun m' h' => by
      rw [InExpr.rcap h m' m]; exact ⟨⟨⟨⟨(InExpr.gram h hg.1.1.1.1).2 m' h', hg.1.1.1.2⟩, hg.1.1.2⟩, hg.1.2⟩, hg.2⟩⟩
  | .callA _ _ _ _ _ _ h, _, m, hg => by
    simp only [Expr.gram, Bool.and_eq_true] at hg ⊢
    exact ⟨(InItems.gramArgs h hg.1.2).1, fun m' h' => ⟨⟨hg.1.1, (InItems.gramArgs h hg.1.2).2 m' h'⟩, hg.2⟩⟩
  | .funcP _ _ _ _ _ _ h, _, m, hg => by
    simp only [Expr.gram, Bool.and_eq_true] at hg ⊢
    exact ⟨(InItems.gramPars h hg.1.1.1.2).1, fun m' h' =>
      ⟨⟨⟨⟨hg.1.1.1.1, (InItems.gramPars h hg.1.1.1.2).2 m' h'⟩, hg.1.1.2⟩, hg.1.2⟩, hg.2⟩⟩
  | .funcB _ _ _ _ _ _ h, _, m, hg => by
    simp only [Expr.gram, Bool.and_eq_true] at hg ⊢
    exact ⟨(InExpr.gram h hg.1.2).1, fun m' h' => by
      rw [InExpr.llow h m' m]; exact ⟨⟨hg.1.1, (InExpr.gram h hg.1.2).2 m' h'⟩, hg.2⟩⟩
  | .iteC _ _ _ _ _ h, _, m, hg => by
    simp only [Expr.gram, Bool.and_eq_true] at hg ⊢
    exact ⟨(InExpr.gram h hg.1.1.1.2).1, fun m' h' =>
      ⟨⟨⟨⟨hg.1.1.1.1, (InExpr.gram h hg.1.1.1.2).2 m' h'⟩, hg.1.1.2⟩, hg.1.2⟩, hg.2⟩⟩
  | .iteT _ _ _ _ _ h, _, m, hg => by
    simp only [Expr.gram, Bool.and_eq_true] at hg ⊢
    exact ⟨(InExpr.gram h hg.1.2).1, fun m' h' => by
      rw [InExpr.llow h m' m]; exact ⟨⟨hg.1.1, (InExpr.gram h hg.1.2).2 m' h'⟩, hg.2⟩⟩
  | .iteeC _ _ _ _ _ _ _ _ h, _, m, hg => by
    simp only [Expr.gram, Bool.and_eq_true] at hg ⊢
    obtain ⟨⟨⟨⟨⟨⟨⟨⟨⟨g1, g2⟩, g3⟩, g4⟩, g5⟩, g6⟩, g7⟩, g8⟩, g9⟩, g10⟩ := hg
    exact ⟨(InExpr.gram h g3).1, fun m' h' =>
      ⟨⟨⟨⟨⟨⟨⟨⟨⟨g1, g2⟩, (InExpr.gram h g3).2 m' h'⟩, g4⟩, g5⟩, g6⟩, g7⟩, g8⟩, g9⟩, g10⟩⟩
  | .iteeT _ _ _ _ _ _ _ _ h, _, m, hg => by
    simp only [Expr.gram, Bool.and_eq_true] at hg ⊢
    obtain ⟨⟨⟨⟨⟨⟨⟨⟨⟨g1, g2⟩, g3⟩, g4⟩, g5⟩, g6⟩, g7⟩, g8⟩, g9⟩, g10⟩ := hg
    exact ⟨(InExpr.gram h g5).1, fun m' h' => by
      rw [InExpr.llow h m' m, InExpr.openIf h m' m]
      exact ⟨⟨⟨⟨⟨⟨⟨⟨⟨g1, g2⟩, g3⟩, g4⟩, (InExpr.gram h g5).2 m' h'⟩, g6⟩, g7⟩, g8⟩, g9⟩, g10⟩⟩
  | .iteeE _ _ _ _ _ _ _ _ h, _, m, hg => by
    simp only [Expr.gram, Bool.and_eq_true] at hg ⊢
    obtain ⟨⟨⟨⟨⟨⟨⟨⟨⟨g1, g2⟩, g3⟩, g4⟩, g5⟩, g6⟩, g7⟩, g8⟩, g9⟩, g10⟩ := hg
    exact ⟨(InExpr.gram h g9).1, fun m' h' => by
      rw [InExpr.llow h m' m]
      exact ⟨⟨⟨⟨⟨⟨⟨⟨⟨g1, g2⟩, g3⟩, g4⟩, g5⟩, g6⟩, g7⟩, g8⟩, (InExpr.gram h g9).2 m' h'⟩, g10⟩⟩
  | .forS _ _ _ _ _ _ _ h, _, m, hg => by
    simp only [Expr.gram, Bool.and_eq_true] at hg ⊢
    obtain ⟨⟨⟨⟨⟨⟨⟨g1, g2⟩, g3⟩, g4⟩, g5⟩, g6⟩, g7⟩, g8⟩ := hg
    exact ⟨(InExpr.gram h g5).1, fun m' h' =>
      ⟨⟨⟨⟨⟨⟨⟨g1, g2⟩, g3⟩, g4⟩, (InExpr.gram h g5).2 m' h'⟩, g6⟩, g7⟩, g8⟩⟩
  | .forB _ _ _ _ _ _ _ h, _, m, hg => by
    simp only [Expr.gram, Bool.and_eq_true] at hg ⊢
    exact ⟨(InExpr.gram h hg.1.2).1, fun m' h' => by
      rw [InExpr.llow h m' m]; exact ⟨⟨hg.1.1, (InExpr.gram h hg.1.2).2 m' h'⟩, hg.2⟩⟩
  | .whileC _ _ _ _ _ h, _, m, hg => by
    simp only [Expr.gram, Bool.and_eq_true] at hg ⊢
    exact ⟨(InExpr.gram h hg.1.1.1.2).1, fun m' h' =>
      ⟨⟨⟨⟨hg.1.1.1.1, (InExpr.gram h hg.1.1.1.2).2 m' h'⟩, hg.1.1.2⟩, hg.1.2⟩, hg.2⟩⟩
  | .whileB _ _ _ _ _ h, _, m, hg => by
    simp only [Expr.gram, Bool.and_eq_true] at hg ⊢
    exact ⟨(InExpr.gram h hg.1.2).1, fun m' h' => by
      rw [InExpr.llow h m' m]; exact ⟨⟨hg.1.1, (InExpr.gram h hg.1.2).2 m' h'⟩, hg.2⟩⟩
  | .repeat_ _ _ h, _, m, hg => by
    simp only [Expr.gram, Bool.and_eq_true] at hg ⊢
    exact ⟨(InExpr.gram h hg.1.2).1, fun m' h' => by
      rw [InExpr.llow h m' m]; exact ⟨⟨hg.1.1, (InExpr.gram h hg.1.2).2 m' h'⟩, hg.2⟩⟩
theorem InExprs.gram {A B C} : InExprs A C B → {m : Exprs} → (C m).gram = true →
    m.gram = true ∧ ∀ m' : Exprs, m'.gram = true → (C m').gram = true
  | .here post, m, hg => by
    simp only [gram_append, Bool.and_eq_true] at hg ⊢
    exact ⟨hg.1, fun m' h' => ⟨h', hg.2⟩⟩
  | .item es h, m, hg => by
    simp only [Exprs.gram, Bool.and_eq_true] at hg ⊢
    exact ⟨(InExpr.gram h hg.1).1, fun m' h' => ⟨(InExpr.gram h hg.1).2 m' h', hg.2⟩⟩
  | .next es h, m, hg => by
    simp only [Exprs.gram, Bool.and_eq_true] at hg ⊢
    exact ⟨(InExprs.gram h hg.2).1, fun m' h' => ⟨hg.1, (InExprs.gram h hg.2).2 m' h'⟩⟩
theorem InItems.gramArgs {A B C} : InItems A C B → {first : Bool} → {m : Exprs} → (C m).gramArgs first = true →
    m.gram = true ∧ ∀ m' : Exprs, m'.gram = true → (C m').gramArgs first = true
  | .last h, _, m, hg => by
    simp only [Items.gramArgs, Bool.and_eq_true] at hg ⊢
    exact ⟨(InArg.gramArg h hg.1).1, fun m' h' => ⟨(InArg.gramArg h hg.1).2 m' h', by simp [InArg.isHole h m']⟩⟩
  | .item _ _ h, _, m, hg => by
    simp only [Items.gramArgs, Bool.and_eq_true] at hg ⊢
    exact ⟨(InArg.gramArg h hg.1.1).1, fun m' h' => ⟨⟨(InArg.gramArg h hg.1.1).2 m' h', hg.1.2⟩, hg.2⟩⟩
  | .next _ _ h, _, m, hg => by
    simp only [Items.gramArgs, Bool.and_eq_true] at hg ⊢
    exact ⟨(InItems.gramArgs h hg.2).1, fun m' h' => ⟨hg.1, (InItems.gramArgs h hg.2).2 m' h'⟩⟩
theorem InItems.gramPars {A B C} : InItems A C B → {m : Exprs} → (C m).gramPars = true →
    m.gram = true ∧ ∀ m' : Exprs, m'.gram = true → (C m').gramPars = true
  | .last h, m, hg => by
    simp only [Items.gramPars] at hg ⊢
    exact ⟨(InArg.gramPar h hg).1, fun m' h' => (InArg.gramPar h hg).2 m' h'⟩
  | .item _ _ h, m, hg => by
    simp only [Items.gramPars, Bool.and_eq_true] at hg ⊢
    exact ⟨(InArg.gramPar h hg.1.1).1, fun m' h' => ⟨⟨(InArg.gramPar h hg.1.1).2 m' h', hg.1.2⟩, hg.2⟩⟩
  | .next _ _ h, m, hg => by
    simp only [Items.gramPars, Bool.and_eq_true] at hg ⊢
    exact ⟨(InItems.gramPars1 h hg.2).1, fun m' h' => ⟨hg.1, (InItems.gramPars1 h hg.2).2 m' h'⟩⟩
theorem InItems.gramPars1 {A B C} : InItems A C B → {m : Exprs} → (C m).gramPars1 = true →
    m.gram = true ∧ ∀ m' : Exprs, m'.gram = true → (C m').gramPars1 = true
  | .last h, m, hg => by
    simp only [Items.gramPars1] at hg ⊢
    exact ⟨(InArg.gramPar h hg).1, fun m' h' => (InArg.gramPar h hg).2 m' h'⟩
  | .item _ _ h, m, hg => by
    simp only [Items.gramPars1, Bool.and_eq_true] at hg ⊢
    exact ⟨(InArg.gramPar h hg.1.1).1, fun m' h' => ⟨⟨(InArg.gramPar h hg.1.1).2 m' h', hg.1.2⟩, hg.2⟩⟩
  | .next _ _ h, m, hg => by
    simp only [Items.gramPars1, Bool.and_eq_true] at hg ⊢
    exact ⟨(InItems.gramPars1 h hg.2).1, fun m' h' => ⟨hg.1, (InItems.gramPars1 h hg.2).2 m' h'⟩⟩
theorem InArg.gramArg {A B C} : InArg A C B → {m : Exprs} → (C m).gramArg = true →
    m.gram = true ∧ ∀ m' : Exprs, m'.gram = true → (C m').gramArg = true
  | .val _ h, m, hg => by
    simp only [Arg.gramArg] at hg ⊢
    exact ⟨(InExpr.gram h hg).1, fun m' h' => (InExpr.gram h hg).2 m' h'⟩
  | .named _ _ _ _ h, m, hg => by
    simp only [Arg.gramArg, Bool.and_eq_true] at hg ⊢
    exact ⟨(InExpr.gram h hg.2).1, fun m' h' => ⟨hg.1, (InExpr.gram h hg.2).2 m' h'⟩⟩
  | .pdef _ _ _ _ _, m, hg => by simp [Arg.gramArg] at hg
theorem InArg.gramPar {A B C} : InArg A C B → {m : Exprs} → (C m).gramPar = true →
    m.gram = true ∧ ∀ m' : Exprs, m'.gram = true → (C m').gramPar = true
  | .val _ h, m, hg => by
    simp [Arg.gramPar, (InExpr.noName h m).2.2.1] at hg
  | .named _ _ _ _ h, m, hg => by simp [Arg.gramPar] at hg
  | .pdef _ _ _ _ h, m, hg => by
    simp only [Arg.gramPar, Bool.and_eq_true] at hg ⊢
    exact ⟨(InExpr.gram h hg.2).1, fun m' h' => ⟨hg.1, (InExpr.gram h hg.2).2 m' h'⟩⟩
end

/-! ## Tokens and loops -/

theorem lexical_append : (xs ys : Exprs) → ((xs.append ys).lexical ↔ xs.lexical ∧ ys.lexical)
  | .nil, ys => by simp [Exprs.append, Exprs.lexical]
  | .cons x xs, ys => by simp [Exprs.append, Exprs.lexical, lexical_append xs ys, and_assoc]

theorem loops_append : (xs ys : Exprs) → (xs.append ys).loops = (xs.loops && ys.loops)
  | .nil, ys => by simp [Exprs.append, Exprs.loops]
  | .cons x xs, ys => by simp [Exprs.append, Exprs.loops, loops_append xs ys, Bool.and_assoc]

mutual
theorem InExpr.lexical {A B C} : InExpr A C B → {m : Exprs} → (C m).lexical →
    m.lexical ∧ ∀ m' : Exprs, m'.lexical → (C m').lexical
  | .paren _ _ _ h, m, hg | .unary _ _ h, m, hg | .binaryL _ _ _ h, m, hg | .binaryR _ _ _ h, m, hg
  | .sel _ _ _ _ h, m, hg | .callF _ _ _ _ _ _ h, m, hg
  | .funcB _ _ _ _ _ _ h, m, hg | .iteC _ _ _ _ _ h, m, hg | .iteT _ _ _ _ _ h, m, hg
  | .iteeC _ _ _ _ _ _ _ _ h, m, hg | .iteeT _ _ _ _ _ _ _ _ h, m, hg | .iteeE _ _ _ _ _ _ _ _ h, m, hg
  | .forS _ _ _ _ _ _ _ h, m, hg | .forB _ _ _ _ _ _ _ h, m, hg | .whileC _ _ _ _ _ h, m, hg
  | .whileB _ _ _ _ _ h, m, hg | .repeat_ _ _ h, m, hg => by
    have ih := fun hg => InExpr.lexical h (m := m) hg
    simp only [Expr.lexical] at hg ⊢
    simp only [hg, true_and, and_true] at ih ⊢
    exact ih trivial
  | .braced _ _ _ _ _ h, m, hg => by
    have ih := fun hg => InExprs.lexical h (m := m) hg
    simp only [Expr.lexical] at hg ⊢
    simp only [hg, true_and, and_true] at ih ⊢
    exact ih trivial
  | .callA _ _ _ _ _ _ h, m, hg | .funcP _ _ _ _ _ _ h, m, hg => by
    have ih := fun hg => InItems.lexical h (m := m) hg
    simp only [Expr.lexical] at hg ⊢
    simp only [hg, true_and, and_true] at ih ⊢
    exact ih trivial
theorem InExprs.lexical {A B C} : InExprs A C B → {m : Exprs} → (C m).lexical →
    m.lexical ∧ ∀ m' : Exprs, m'.lexical → (C m').lexical
  | .here post, m, hg => by
    simp only [lexical_append] at hg ⊢
    exact ⟨hg.1, fun m' h' => ⟨h', hg.2⟩⟩
  | .item es h, m, hg => ⟨(InExpr.lexical h hg.1).1, fun m' h' => ⟨(InExpr.lexical h hg.1).2 m' h', hg.2⟩⟩
  | .next es h, m, hg => ⟨(InExprs.lexical h hg.2).1, fun m' h' => ⟨hg.1, (InExprs.lexical h hg.2).2 m' h'⟩⟩
theorem InItems.lexical {A B C} : InItems A C B → {m : Exprs} → (C m).lexical →
    m.lexical ∧ ∀ m' : Exprs, m'.lexical → (C m').lexical
  | .last h, m, hg => InArg.lexical h hg
  | .item _ _ h, m, hg => ⟨(InArg.lexical h hg.1).1, fun m' h' => ⟨(InArg.lexical h hg.1).2 m' h', hg.2⟩⟩
  | .next _ _ h, m, hg =>
    ⟨(InItems.lexical h hg.2.2).1, fun m' h' => ⟨hg.1, hg.2.1, (InItems.lexical h hg.2.2).2 m' h'⟩⟩
theorem InArg.lexical {A B C} : InArg A C B → {m : Exprs} → (C m).lexical →
    m.lexical ∧ ∀ m' : Exprs, m'.lexical → (C m').lexical
  | .val _ h, m, hg | .named _ _ _ _ h, m, hg | .pdef _ _ _ _ h, m, hg => by
    have ih := fun hg => InExpr.lexical h (m := m) hg
    simp only [Arg.lexical] at hg ⊢
    simp only [hg, true_and, and_true] at ih ⊢
    exact ih trivial
end

mutual
theorem InExpr.loops {A B C} : InExpr A C B → {m : Exprs} → (C m).loops = true → m.loops = true
  | .paren _ _ _ h, m, hg | .unary _ _ h, m, hg | .binaryL _ _ _ h, m, hg | .binaryR _ _ _ h, m, hg
  | .sel _ _ _ _ h, m, hg | .callF _ _ _ _ _ _ h, m, hg
  | .funcB _ _ _ _ _ _ h, m, hg | .iteC _ _ _ _ _ h, m, hg | .iteT _ _ _ _ _ h, m, hg
  | .iteeC _ _ _ _ _ _ _ _ h, m, hg | .iteeT _ _ _ _ _ _ _ _ h, m, hg | .iteeE _ _ _ _ _ _ _ _ h, m, hg
  | .forS _ _ _ _ _ _ _ h, m, hg | .forB _ _ _ _ _ _ _ h, m, hg | .whileC _ _ _ _ _ h, m, hg
  | .whileB _ _ _ _ _ h, m, hg | .repeat_ _ _ h, m, hg => by
    simp only [Expr.loops, Bool.and_eq_true] at hg
    apply InExpr.loops h
    simp only [hg]
  | .braced _ _ _ _ _ h, m, hg => InExprs.loops h hg
  | .callA _ _ _ _ _ _ h, m, hg | .funcP _ _ _ _ _ _ h, m, hg => by
    simp only [Expr.loops, Bool.and_eq_true] at hg
    apply InItems.loops h
    simp only [hg]
theorem InExprs.loops {A B C} : InExprs A C B → {m : Exprs} → (C m).loops = true → m.loops = true
  | .here post, m, hg => by
    simp only [loops_append, Bool.and_eq_true] at hg
    exact hg.1
  | .item es h, m, hg => by simp only [Exprs.loops, Bool.and_eq_true] at hg; exact InExpr.loops h hg.1
  | .next es h, m, hg => by simp only [Exprs.loops, Bool.and_eq_true] at hg; exact InExprs.loops h hg.2
theorem InItems.loops {A B C} : InItems A C B → {m : Exprs} → (C m).loops = true → m.loops = true
  | .last h, m, hg => InArg.loops h hg
  | .item _ _ h, m, hg => by simp only [Items.loops, Bool.and_eq_true] at hg; exact InArg.loops h hg.1
  | .next _ _ h, m, hg => by simp only [Items.loops, Bool.and_eq_true] at hg; exact InItems.loops h hg.2
theorem InArg.loops {A B C} : InArg A C B → {m : Exprs} → (C m).loops = true → m.loops = true
  | .val _ h, m, hg => InExpr.loops h hg
  | .named _ _ _ _ h, m, hg | .pdef _ _ _ _ h, m, hg => by
    simp only [Arg.loops, Bool.and_eq_true] at hg; exact InExpr.loops h hg.2
end

end Verif.Format
