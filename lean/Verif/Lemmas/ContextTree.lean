import Verif.Lemmas.ContextGram
import Verif.Props.RangeFormat
import Verif.Lemmas.LexParsed
import Verif.Lemmas.Written

/-!
# Where the expression lists of the syntax tree are
-/

namespace Verif.Format
open Verif.Syntax Verif.RangeFormat Verif.Whole

/-- Length of tokens with all trivia. -/
def fullLen (ts : List Token) : Nat := ((ts.map Token.full).flatten).length

theorem fullLen_append (a b : List Token) : fullLen (a ++ b) = fullLen a + fullLen b := by simp [fullLen]
theorem fullLen_cons (t : Token) (b : List Token) : fullLen (t :: b) = fullLen [t] + fullLen b := by simp [fullLen]

/-- The tree occurs somewhere. -/
def Occurs (t : Tree) (s s' : Nat) (t' : Tree) : Prop := ∃ p, Occ t s p s' t'
def OccIn (cs : List Tree) (s s' : Nat) (t' : Tree) : Prop :=
  ∃ l c r, cs = l ++ c :: r ∧ Occurs c (s + lens l) s' t'

theorem occIn_nil (s s' : Nat) (t' : Tree) : OccIn [] s s' t' ↔ False := by
  constructor
  · rintro ⟨l, c, r, h, -⟩; simp at h
  · exact False.elim

theorem occIn_cons (c : Tree) (cs : List Tree) (s s' : Nat) (t' : Tree) :
    OccIn (c :: cs) s s' t' ↔ Occurs c s s' t' ∨ OccIn cs (s + len c) s' t' := by
  constructor
  · rintro ⟨l, d, r, h, ho⟩
    cases l with
    | nil => simp at h; obtain ⟨rfl, rfl⟩ := h; exact .inl (by simpa using ho)
    | cons x l =>
      simp at h; obtain ⟨rfl, rfl⟩ := h
      exact .inr ⟨l, d, r, rfl, by rw [lens_cons, ← Nat.add_assoc] at ho; exact ho⟩
  · rintro (h | ⟨l, d, r, rfl, ho⟩)
    · exact ⟨[], c, cs, rfl, by simpa using h⟩
    · exact ⟨c :: l, d, r, rfl, by rw [lens_cons, ← Nat.add_assoc]; exact ho⟩

theorem occurs_token (t : Token) (s s' : Nat) (k : Kind) (cs : List Tree) :
    Occurs (.token t) s s' (.node k cs) ↔ False := by
  constructor
  · rintro ⟨p, h⟩; cases h
  · exact False.elim

theorem occurs_node (k k' : Kind) (cs ds : List Tree) (s s' : Nat) :
    Occurs (.node k cs) s s' (.node k' ds) ↔ (k = k' ∧ cs = ds ∧ s = s') ∨ OccIn cs s s' (.node k' ds) := by
  constructor
  · rintro ⟨p, h⟩
    cases h with
    | here => exact .inl ⟨rfl, rfl, rfl⟩
    | child k l r h => exact .inr ⟨l, _, r, rfl, _, h⟩
  · rintro (⟨rfl, rfl, rfl⟩ | ⟨l, c, r, rfl, p, h⟩)
    · exact ⟨[], .here _ _⟩
    · exact ⟨_, .child k l r h⟩

theorem len_expr (e : Expr) : len (exprTree e) = fullLen e.tokens := by
  simp [len, fullLen, Tree.full, exprTree_tokens]
theorem lens_exprs (es : Exprs) : lens (exprTrees es) = fullLen es.tokens := by
  simp [lens, fullLen, exprTrees_tokens]
theorem lens_items (par : Bool) (xs : Items) : lens (itemTrees par xs) = fullLen xs.tokens := by
  simp [lens, fullLen, itemTrees_tokens]
theorem len_arg (par : Bool) (x : Arg) : len (argTree par x) = fullLen x.tokens := by
  simp [len, fullLen, Tree.full, argTree_tokens]
theorem len_token (t : Token) : len (.token t) = fullLen [t] := by simp [len, fullLen, Tree.full, Tree.tokens]



/-! ## Names -/

theorem occurs_name {e : Expr} (h : e.selector = true ∨ e.argName = true ∨ e.parName = true) (s s' : Nat)
    (cs : List Tree) : ¬ Occurs (exprTree e) s s' (.node .rExpressionList cs) := by
  cases e with
  | atom a k t =>
    have hk : k ≠ .rExpressionList := by
      rintro rfl
      simp [Expr.selector, Expr.argName, Expr.parName] at h
    simp [exprTree, occurs_node, hk, occIn_cons, occurs_token, occIn_nil]
  | str a o c l =>
    cases c <;> simp [exprTree, occurs_node, occIn_cons, occurs_token, occIn_nil]
  | _ => simp [Expr.selector, Expr.argName, Expr.parName] at h

/-! ## Lists -/

theorem append_assoc' : (xs ys zs : Exprs) → (xs.append ys).append zs = xs.append (ys.append zs)
  | .nil, _, _ => rfl
  | .cons e xs, ys, zs => by simp [Exprs.append, append_assoc' xs ys zs]

theorem exprs_split : (es : Exprs) → (l r : List Tree) → exprTrees es = l ++ r →
    ∃ xs ys, es = xs.append ys ∧ exprTrees xs = l ∧ exprTrees ys = r
  | es, [], r, h => ⟨.nil, es, rfl, rfl, h⟩
  | .nil, c :: l, r, h => by simp [exprTrees] at h
  | .cons e es, c :: l, r, h => by
    simp only [exprTrees, List.cons_append, List.cons.injEq] at h
    obtain ⟨xs, ys, h1, h2, h3⟩ := exprs_split es l r h.2
    exact ⟨.cons e xs, ys, by simp [Exprs.append, h1], by simp [exprTrees, h2, h.1], h3⟩

theorem inExprs_seg (post : Exprs) : (pre : Exprs) →
    InExprs pre.tokens (fun m => pre.append (m.append post)) post.tokens
  | .nil => by simpa [Exprs.append, Exprs.tokens] using InExprs.here post
  | .cons e pre => by simpa [Exprs.append, Exprs.tokens] using InExprs.next e (inExprs_seg post pre)

/-- A gap among the statements `es` for those of them that are `M`. -/
theorem seg {es : Exprs} {l M r : List Tree} (h : exprTrees es = l ++ M ++ r) :
    ∃ A C B mid, InExprs A C B ∧ es = C mid ∧ M = exprTrees mid ∧ lens l = fullLen A := by
  obtain ⟨xy, zs, rfl, h1, h2⟩ := exprs_split es (l ++ M) r h
  obtain ⟨xs, ys, rfl, h3, h4⟩ := exprs_split xy l M h1
  refine ⟨_, _, _, ys, inExprs_seg zs xs, ?_, h4.symm, by rw [← h3, lens_exprs]⟩
  exact append_assoc' _ _ _

/-! ## Contexts of lists -/

/-- The statements `M` of a list in the tree are in a gap. -/
def Gapped (In : List Token → (Exprs → α) → List Token → Prop) (x : α) (s s' : Nat) (l M : List Tree) : Prop :=
  ∃ A C B mid, In A C B ∧ x = C mid ∧ M = exprTrees mid ∧ s' + lens l = s + fullLen A

theorem Gapped.wrap {In : List Token → (Exprs → α) → List Token → Prop}
    {In' : List Token → (Exprs → β) → List Token → Prop} {x : α} {s0 s s' : Nat} {l M : List Tree}
    (h : Gapped In x s s' l M) (f : α → β) (A0 B0 : List Token)
    (hs : s = s0 + fullLen A0)
    (hf : ∀ A C B, In A C B → In' (A0 ++ A) (fun m => f (C m)) (B ++ B0)) : Gapped In' (f x) s0 s' l M := by
  obtain ⟨A, C, B, mid, h1, rfl, h3, h4⟩ := h
  exact ⟨_, _, _, mid, hf A C B h1, rfl, h3, by rw [fullLen_append]; omega⟩

local macro "places" : tactic => `(tactic|
  simp only [exprTree, exprTrees, itemTrees, argTree, occurs_node, occIn_cons, occIn_nil, occurs_token,
    reduceCtorEq, false_and, false_or, or_false, len_token, len_expr, len_node, lens_cons, lens_nil, lens_items, lens_exprs, len_arg,
    Nat.add_zero] at *)

local macro "sized" : tactic => `(tactic|
  (simp only [fullLen, List.map_cons, List.map_append, List.map_nil, List.flatten_cons, List.flatten_append,
    List.flatten_nil, List.length_append, List.length_nil] <;> omega))

mutual
theorem gap_expr : (e : Expr) → {eq : Bool} → e.gram eq = true → {s s' : Nat} → {l M r : List Tree} →
    Occurs (exprTree e) s s' (.node .rExpressionList (l ++ M ++ r)) → Gapped InExpr e s s' l M
  | .atom a k t, _, hg, s, s', l, M, r, h => by
    have hk : k ≠ .rExpressionList := by
      rintro rfl
      simp only [Expr.gram, beq_iff_eq] at hg
      revert hg
      cases t.kind <;> simp [atomKind]
    simp [exprTree, occurs_node, hk, occIn_cons, occurs_token, occIn_nil] at h
  | .str a o c cl, _, hg, s, s', l, M, r, h => by
    cases c <;> simp [exprTree, occurs_node, occIn_cons, occurs_token, occIn_nil] at h
  | .paren a lt e rt, _, hg, s, s', l, M, r, h => by
    simp only [Expr.gram, Bool.and_eq_true] at hg
    places
    exact (gap_expr e hg.1.2 h).wrap (In' := InExpr) (fun x => Expr.paren a lt x rt) [lt] [rt] rfl (fun A C B h => .paren a lt rt h)
  | .braced a lt es rt, _, hg, s, s', l, M, r, h => by
    simp only [Expr.gram, Bool.and_eq_true, beq_iff_eq] at hg
    simp only [exprTree, occurs_node, occIn_cons, occIn_nil, occurs_token, reduceCtorEq, false_and, false_or, or_false,
      len_token, true_and] at h
    have hb : Gapped InExprs es (s + fullLen [lt]) s' l M := by
      rcases h with ⟨h1, h2⟩ | h
      · obtain ⟨A, C, B, mid, h3, h4, h5, h6⟩ := seg h1
        exact ⟨A, C, B, mid, h3, h4, h5, by omega⟩
      · exact gap_exprs es hg.1.2 h
    exact hb.wrap (In' := InExpr) (fun x => Expr.braced a lt x rt) [lt] [rt] rfl (fun A C B h => .braced a lt rt hg.1.1 hg.2 h)
  | .unary a o e, _, hg, s, s', l, M, r, h => by
    simp only [Expr.gram] at hg
    split at hg
    · simp only [Bool.and_eq_true] at hg
      places
      exact (gap_expr e hg.1 h).wrap (In' := InExpr) (fun x => Expr.unary a o x) [o] [] rfl (fun A C B h => by
        simpa using InExpr.unary a o h)
    · cases hg
  | .binary a x o y, _, hg, s, s', l, M, r, h => by
    simp only [Expr.gram] at hg
    split at hg
    · simp only [Bool.and_eq_true] at hg
      places
      rcases h with h | h
      · exact (gap_expr x hg.1.1.1.1 h).wrap (In' := InExpr) (fun x => Expr.binary a x o y) [] (o :: y.tokens) rfl (fun A C B h => by
          simpa using InExpr.binaryL a o y h)
      · exact (gap_expr y hg.1.1.1.2 h).wrap (In' := InExpr) (fun y => Expr.binary a x o y) (x.tokens ++ [o]) []
          (by sized) (fun A C B h => by simpa using InExpr.binaryR a x o h)
    · cases hg
  | .sel a .extract x o y, _, hg, s, s', l, M, r, h => by
    simp only [Expr.gram, Bool.and_eq_true] at hg
    simp only [exprTree, selKind, occurs_node, occIn_cons, occIn_nil, occurs_token, reduceCtorEq, false_and, false_or,
      or_false, occurs_name (.inl hg.2)] at h
    exact (gap_expr x hg.1.1.1 h).wrap (In' := InExpr) (fun x => Expr.sel a .extract x o y) [] (o :: y.tokens) rfl (fun A C B h => by
      simpa using InExpr.sel a .extract o y h)
  | .sel a .namespace x o y, _, hg, s, s', l, M, r, h => by
    simp only [Expr.gram, Bool.and_eq_true] at hg
    simp only [exprTree, selKind, occurs_node, occIn_cons, occIn_nil, occurs_token, reduceCtorEq, false_and, false_or,
      or_false, occurs_name (.inl hg.2), occurs_name (.inl hg.1.1)] at h
  | .call a k f aa lt items rt, _, hg, s, s', l, M, r, h => by
    simp only [Expr.gram, Bool.and_eq_true] at hg
    have hk : callKind k ≠ .rExpressionList := by cases k <;> simp [callKind]
    have hk' : argsKind k ≠ .rExpressionList := by cases k <;> simp [argsKind]
    simp only [exprTree, occurs_node, occIn_cons, occIn_nil, occurs_token, reduceCtorEq, false_and, false_or, or_false,
      hk, hk', len_expr, len_token] at h
    rcases h with h | h
    · exact (gap_expr f hg.1.1.1.1 h).wrap (In' := InExpr) (fun f => Expr.call a k f aa lt items rt) [] (lt :: (items.tokens ++ [rt])) rfl
        (fun A C B h => by simpa using InExpr.callF a k aa lt items rt h)
    · exact (gap_items items false (.inl ⟨_, hg.1.2⟩) h).wrap (In' := InExpr) (fun items => Expr.call a k f aa lt items rt)
        (f.tokens ++ [lt]) [rt] (by sized)
        (fun A C B h => by simpa using InExpr.callA a k f aa lt rt h)
  | .func a kw pa lt items rt b, _, hg, s, s', l, M, r, h => by
    simp only [Expr.gram, Bool.and_eq_true] at hg
    places
    rcases h with h | h
    · exact (gap_items items true (.inr (.inl hg.1.1.1.2)) h).wrap (In' := InExpr) (fun items => Expr.func a kw pa lt items rt b)
        [kw, lt] (rt :: b.tokens) (by sized)
        (fun A C B h => by simpa using InExpr.funcP a kw pa lt rt b h)
    · exact (gap_expr b hg.1.2 h).wrap (In' := InExpr) (fun b => Expr.func a kw pa lt items rt b) (kw :: lt :: (items.tokens ++ [rt])) []
        (by sized)
        (fun A C B h => by simpa using InExpr.funcB a kw pa lt items rt h)
  | .ite a kw lt c rt t, _, hg, s, s', l, M, r, h => by
    simp only [Expr.gram, Bool.and_eq_true] at hg
    places
    rcases h with h | h
    · exact (gap_expr c hg.1.1.1.2 h).wrap (In' := InExpr) (fun c => Expr.ite a kw lt c rt t) [kw, lt] (rt :: t.tokens)
        (by sized) (fun A C B h => by simpa using InExpr.iteC a kw lt rt t h)
    · exact (gap_expr t hg.1.2 h).wrap (In' := InExpr) (fun t => Expr.ite a kw lt c rt t) (kw :: lt :: (c.tokens ++ [rt])) []
        (by sized)
        (fun A C B h => by simpa using InExpr.iteT a kw lt c rt h)
  | .itee a kw lt c rt t ea el e, _, hg, s, s', l, M, r, h => by
    simp only [Expr.gram, Bool.and_eq_true] at hg
    obtain ⟨⟨⟨⟨⟨⟨⟨⟨⟨g1, g2⟩, g3⟩, g4⟩, g5⟩, g6⟩, g7⟩, g8⟩, g9⟩, g10⟩ := hg
    simp only [exprTree, occurs_node, occIn_cons, occIn_nil, occurs_token, reduceCtorEq, false_and, false_or, or_false,
      len_token, len_expr] at h
    rcases h with h | h | h
    · exact (gap_expr c g3 h).wrap (In' := InExpr) (fun c => Expr.itee a kw lt c rt t ea el e) [kw, lt]
        (rt :: (t.tokens ++ el :: e.tokens))
        (by sized) (fun A C B h => by simpa using InExpr.iteeC a kw lt rt t ea el e h)
    · exact (gap_expr t g5 h).wrap (In' := InExpr) (fun t => Expr.itee a kw lt c rt t ea el e) (kw :: lt :: (c.tokens ++ [rt]))
        (el :: e.tokens)
        (by sized)
        (fun A C B h => by simpa using InExpr.iteeT a kw lt c rt ea el e h)
    · exact (gap_expr e g9 h).wrap (In' := InExpr) (fun e => Expr.itee a kw lt c rt t ea el e)
        (kw :: lt :: (c.tokens ++ rt :: (t.tokens ++ [el]))) []
        (by sized)
        (fun A C B h => by simpa using InExpr.iteeE a kw lt c rt t ea el h)
  | .for_ a kw lt v i sq rt b, _, hg, s, s', l, M, r, h => by
    simp only [Expr.gram, Bool.and_eq_true] at hg
    obtain ⟨⟨⟨⟨⟨⟨⟨g1, g2⟩, g3⟩, g4⟩, g5⟩, g6⟩, g7⟩, g8⟩ := hg
    simp only [exprTree, occurs_node, occIn_cons, occIn_nil, occurs_token, reduceCtorEq, false_and, false_or, or_false,
      len_token, len_expr, occurs_name (.inr (.inr g3))] at h
    rcases h with h | h
    · exact (gap_expr sq g5 h).wrap (In' := InExpr) (fun sq => Expr.for_ a kw lt v i sq rt b) (kw :: lt :: (v.tokens ++ [i]))
        (rt :: b.tokens)
        (by sized)
        (fun A C B h => by simpa using InExpr.forS a kw lt v i rt b h)
    · exact (gap_expr b g7 h).wrap (In' := InExpr) (fun b => Expr.for_ a kw lt v i sq rt b)
        (kw :: lt :: (v.tokens ++ i :: (sq.tokens ++ [rt]))) []
        (by sized)
        (fun A C B h => by simpa using InExpr.forB a kw lt v i sq rt h)
  | .while_ a kw lt c rt b, _, hg, s, s', l, M, r, h => by
    simp only [Expr.gram, Bool.and_eq_true] at hg
    places
    rcases h with h | h
    · exact (gap_expr c hg.1.1.1.2 h).wrap (In' := InExpr) (fun c => Expr.while_ a kw lt c rt b) [kw, lt] (rt :: b.tokens)
        (by sized) (fun A C B h => by simpa using InExpr.whileC a kw lt rt b h)
    · exact (gap_expr b hg.1.2 h).wrap (In' := InExpr) (fun b => Expr.while_ a kw lt c rt b) (kw :: lt :: (c.tokens ++ [rt])) []
        (by sized)
        (fun A C B h => by simpa using InExpr.whileB a kw lt c rt h)
  | .repeat_ a kw b, _, hg, s, s', l, M, r, h => by
    simp only [Expr.gram, Bool.and_eq_true] at hg
    places
    exact (gap_expr b hg.1.2 h).wrap (In' := InExpr) (fun b => Expr.repeat_ a kw b) [kw] [] rfl
      (fun A C B h => by simpa using InExpr.repeat_ a kw h)
theorem gap_exprs : (es : Exprs) → es.gram = true → {s s' : Nat} → {l M r : List Tree} →
    OccIn (exprTrees es) s s' (.node .rExpressionList (l ++ M ++ r)) → Gapped InExprs es s s' l M
  | .nil, _, s, s', l, M, r, h => by simp [exprTrees, occIn_nil] at h
  | .cons e es, hg, s, s', l, M, r, h => by
    simp only [Exprs.gram, Bool.and_eq_true] at hg
    simp only [exprTrees, occIn_cons, len_expr] at h
    rcases h with h | h
    · exact (gap_expr e hg.1 h).wrap (In' := InExprs) (fun e => Exprs.cons e es) [] es.tokens rfl (fun A C B h => .item es h)
    · exact (gap_exprs es hg.2 h).wrap (In' := InExprs) (fun es => Exprs.cons e es) e.tokens [] rfl
        (fun A C B h => by simpa using InExprs.next e h)
theorem gap_items : (xs : Items) → (par : Bool) →
    ((∃ first, xs.gramArgs first = true) ∨ xs.gramPars = true ∨ xs.gramPars1 = true) →
    {s s' : Nat} → {l M r : List Tree} →
    OccIn (itemTrees par xs) s s' (.node .rExpressionList (l ++ M ++ r)) → Gapped InItems xs s s' l M
  | .nil, _, _, s, s', l, M, r, h => by simp [itemTrees, occIn_nil] at h
  | .last x, par, hg, s, s', l, M, r, h => by
    simp only [Items.gramArgs, Items.gramPars, Items.gramPars1, Bool.and_eq_true] at hg
    simp only [itemTrees, occIn_cons, occIn_nil, or_false] at h
    have hx : x.gramArg = true ∨ x.gramPar = true := by
      rcases hg with ⟨_, hg⟩ | hg | hg
      · exact .inl hg.1
      · exact .inr hg
      · exact .inr hg
    exact (gap_arg x par hx h).wrap (In' := InItems) (fun x => Items.last x) [] [] rfl (fun A C B h => by simpa using InItems.last h)
  | .cons x sp xs, par, hg, s, s', l, M, r, h => by
    simp only [Items.gramArgs, Items.gramPars, Items.gramPars1, Bool.and_eq_true] at hg
    simp only [itemTrees, occIn_cons, len_arg, occurs_token, false_or, len_token] at h
    have hx : (x.gramArg = true ∨ x.gramPar = true) ∧
        ((∃ first, xs.gramArgs first = true) ∨ xs.gramPars = true ∨ xs.gramPars1 = true) := by
      rcases hg with ⟨_, hg⟩ | hg | hg
      · exact ⟨.inl hg.1.1, .inl ⟨_, hg.2⟩⟩
      · exact ⟨.inr hg.1.1, .inr (.inr hg.2)⟩
      · exact ⟨.inr hg.1.1, .inr (.inr hg.2)⟩
    rcases h with h | h
    · exact (gap_arg x par hx.1 h).wrap (In' := InItems) (fun x => Items.cons x sp xs) [] (sp :: xs.tokens) rfl
        (fun A C B h => by simpa using InItems.item sp xs h)
    · exact (gap_items xs par hx.2 h).wrap (In' := InItems) (fun xs => Items.cons x sp xs) (x.tokens ++ [sp]) []
        (by sized) (fun A C B h => by simpa using InItems.next x sp h)
theorem gap_arg : (x : Arg) → (par : Bool) → (x.gramArg = true ∨ x.gramPar = true) →
    {s s' : Nat} → {l M r : List Tree} →
    Occurs (argTree par x) s s' (.node .rExpressionList (l ++ M ++ r)) → Gapped InArg x s s' l M
  | .hole _, _, _, s, s', l, M, r, h => by simp [argTree, occurs_node, occIn_nil] at h
  | .val a e, par, hg, s, s', l, M, r, h => by
    have hp : (if par = true then Kind.rParameter else Kind.rArgument) ≠ .rExpressionList := by cases par <;> simp
    simp only [argTree, occurs_node, hp, false_and, false_or, occIn_cons, occIn_nil, or_false] at h
    simp only [Arg.gramArg, Arg.gramPar] at hg
    rcases hg with hg | hg
    · exact (gap_expr e hg h).wrap (In' := InArg) (fun e => Arg.val a e) [] [] rfl (fun A C B h => by simpa using InArg.val a h)
    · exact absurd h (occurs_name (.inr (.inr hg)) _ _ _)
  | .name a na n q, par, hg, s, s', l, M, r, h => by
    simp only [Arg.gramArg, Arg.gramPar, Bool.and_eq_true, reduceCtorEq, or_false] at hg
    simp [argTree, occurs_node, occIn_cons, occIn_nil, occurs_token, occurs_name (.inr (.inl hg.1))] at h
  | .named a na n q e, par, hg, s, s', l, M, r, h => by
    simp only [Arg.gramArg, Arg.gramPar, Bool.and_eq_true, reduceCtorEq, or_false] at hg
    simp only [argTree, occurs_node, occIn_cons, occIn_nil, occurs_token, occurs_name (.inr (.inl hg.1.1)),
      reduceCtorEq, false_and, false_or, or_false, len_node, lens_cons, lens_nil, len_expr, len_token] at h
    exact (gap_expr e hg.2 h).wrap (In' := InArg) (fun e => Arg.named a na n q e) (n.tokens ++ [q]) []
      (by sized) (fun A C B h => by simpa using InArg.named a na n q h)
  | .pdef a n da q e, par, hg, s, s', l, M, r, h => by
    simp only [Arg.gramArg, Arg.gramPar, Bool.and_eq_true, reduceCtorEq, false_or] at hg
    simp only [argTree, occurs_node, occIn_cons, occIn_nil, occurs_token, occurs_name (.inr (.inr hg.1.1)),
      reduceCtorEq, false_and, false_or, or_false, len_node, lens_cons, lens_nil, len_expr, len_token] at h
    exact (gap_expr e hg.2 h).wrap (In' := InArg) (fun e => Arg.pdef a n da q e) (n.tokens ++ [q]) []
      (by sized) (fun A C B h => by simpa using InArg.pdef a n da q h)
end

/-- The statements `M` of a list in the tree of a file. -/
theorem gap_file {x : Root} (hg : x.es.gram = true) {p : Path} {s : Nat} {l M r : List Tree}
    (h : Occ (fileTree x) 0 p s (.node .rExpressionList (l ++ M ++ r))) :
    ∃ A C B mid, InExprs A C B ∧ x.es = C mid ∧ M = exprTrees mid ∧ s + lens l = fullLen A := by
  have h : Occurs (fileTree x) 0 s (.node .rExpressionList (l ++ M ++ r)) := ⟨p, h⟩
  simp only [fileTree, occurs_node, occIn_cons, occIn_nil, occurs_token, reduceCtorEq, false_and, false_or, or_false,
    true_and] at h
  rcases h with ⟨h1, h2⟩ | h
  · obtain ⟨A, C, B, mid, h3, h4, h5, h6⟩ := seg h1
    exact ⟨A, C, B, mid, h3, h4, h5, by omega⟩
  · obtain ⟨A, C, B, mid, h3, h4, h5, h6⟩ := gap_exprs x.es hg h
    exact ⟨A, C, B, mid, h3, h4, h5, by omega⟩

end Verif.Format
