import Verif.Lemmas.PlacementSound

/-!
# Comments are attached only where the rules print them
-/

namespace Verif.Format
open Verif.Syntax

variable {X : View} {D : List Deco}

/-- No comment is attached in this way. -/
theorem attached_nil {w : Where} {r : Ref} (h : ∀ d ∈ D, placeComment d ≠ ⟨w, r⟩) :
    (((D.map Deco.placed).filter (fun p => p.to == ⟨w, r⟩)).map Placed.comment) = [] := by
  rw [List.filter_eq_nil_iff.2]
  · rfl
  · intro p hp
    obtain ⟨d, hd, rfl⟩ := List.mem_map.1 hp
    rw [beq_iff_eq]
    exact h d hd

theorem nodeAt_suffix {d : Deco} {s : Ref} (h : d.Sound X s) (q : Ref) :
    X.nodeAt (d.ref ++ q) = d.enclosing.nodeAt q := by
  rw [nodeAt_append, h.at_]

/-- Dangling comments are attached to nodes without child nodes, and not to arguments. -/
theorem dangling_nil (hD : ∀ d ∈ D, ∃ s, d.Sound X s) {r : Ref} {z : View} (hz : X.nodeAt r = some z)
    (h : (∃ j y, z.parts.slot j = some y) ∨
      (z.parts = .nil ∧ z.kind ≠ .rBracedExpressions ∧ z.kind ≠ .rIfStatement ∧ z.kind ≠ .rElseClause)) :
    (annAt (D.map Deco.placed) r).dangling = [] := by
  apply attached_nil
  intro d hd hp
  obtain ⟨s, hs⟩ := hD d hd
  have ht : r = d.ref ++ s := by rw [← hs.fate.target, hp]
  have hn : d.enclosing.nodeAt s = some z := by rw [← nodeAt_suffix hs, ← ht, hz]
  by_cases h0 : s = []
  · subst h0
    cases hn
    rcases hs.fate.own rfl with ⟨h1, -⟩ | ⟨-, h1⟩
    · rw [hp] at h1; cases h1
    · rcases h with ⟨j, y, hj⟩ | ⟨h2, -⟩
      · rw [h1 j] at hj; cases hj
      · have := hs.ok.gap_lt
        rw [h2] at this
        simp [Parts.length] at this
  · obtain ⟨⟨z', w, h1, h2, -⟩, y, h3, h4⟩ := hs.fate.dangling (by rw [hp]) h0
    rw [hn] at h1 h3
    cases h1
    cases h3
    rcases h with ⟨j, y, hj⟩ | ⟨-, h5, h6, h7⟩
    · rw [h4 j] at hj; cases hj
    · rcases h2 with h2 | h2 | h2
      · exact h5 h2
      · exact h6 h2
      · exact h7 h2

/-- Nothing trails the last child of a node. -/
theorem trailing_nil (hD : ∀ d ∈ D, ∃ s, d.Sound X s) {r : Ref} {z : View} (hz : X.nodeAt r = some z)
    {j : Nat} (h : z.parts.length = j + 1) : (annAt (D.map Deco.placed) (r ++ [j])).trailing = [] := by
  apply attached_nil
  intro d hd hp
  obtain ⟨s, hs⟩ := hD d hd
  obtain ⟨i, h1, h2⟩ := hs.fate.trailing (by rw [hp])
  have ht : r ++ [j] = d.ref ++ s := by rw [← hs.fate.target, hp]
  rw [h1] at ht
  obtain ⟨h3, h4⟩ := List.append_inj' ht rfl
  rw [h3] at hz
  have := hz.symm.trans hs.at_
  cases this
  have := hs.ok.gap_lt
  simp at h4
  omega

/-- Nothing leads the left operand of a binary operator that is itself such an expression. -/
theorem leading_nil (hD : ∀ d ∈ D, ∃ s, d.Sound X s) {r : Ref} {z y : View} (hz : X.nodeAt r = some z)
    (hk : z.kind = .rBinaryExpression) (hy : X.nodeAt (r ++ [0]) = some y)
    (hk' : ¬ headKind y.kind) (hh : y.isHole = false) :
    (annAt (D.map Deco.placed) (r ++ [0])).leading = [] := by
  apply attached_nil
  intro d hd hp
  obtain ⟨s, hs⟩ := hD d hd
  have ht : r ++ [0] = d.ref ++ s := by rw [← hs.fate.target, hp]
  by_cases h0 : s = []
  · subst h0
    rw [List.append_nil] at ht
    rw [ht] at hy
    have := hy.symm.trans hs.at_
    cases this
    rcases hs.fate.own rfl with ⟨-, h1⟩ | ⟨h1, -⟩
    · exact hk' h1
    · rw [hp] at h1; cases h1
  · obtain ⟨s0, i, rfl⟩ : ∃ s0 i, s = s0 ++ [i] := ⟨_, _, (List.dropLast_concat_getLast h0).symm⟩
    have ht' := ht
    rw [← List.append_assoc] at ht
    obtain ⟨h1, h2⟩ := List.append_inj' ht rfl
    simp at h2
    subst h2
    have h3 := hs.fate.first s0 z y rfl (by rw [hp]) (by rw [← nodeAt_suffix hs, ← h1, hz])
      (by rw [← nodeAt_suffix hs, ← ht', hy]) hk
    rw [h3] at hh
    cases hh

theorem nodeAt_child {r : Ref} {z y : View} {i : Nat} (hz : X.nodeAt r = some z)
    (h : z.parts.slot i = some y) : X.nodeAt (r ++ [i]) = some y := by
  rw [nodeAt_append, hz]
  exact slot_nodeAt h

/-- `ps` are the children of `z` from position `i`. -/
def Parts.At (ps : Parts) (z : View) (i : Nat) : Prop := ∀ j, z.parts.slot (i + j) = ps.slot j

theorem Parts.At.tok {ps : Parts} {t : Token} {z : View} {i : Nat} (h : (Parts.tok t ps).At z i) :
    ps.At z (i + 1) := by
  intro j
  rw [show i + 1 + j = i + (j + 1) by omega, h (j + 1)]
  rfl

theorem Parts.At.sub {ps : Parts} {y : View} {z : View} {i : Nat} (h : (Parts.sub y ps).At z i) :
    z.parts.slot i = some y ∧ ps.At z (i + 1) := by
  refine ⟨h 0, ?_⟩
  intro j
  rw [show i + 1 + j = i + (j + 1) by omega, h (j + 1)]
  rfl

theorem Parts.At.self {k : Kind} {ps : Parts} : ps.At (.node k ps) 0 := by
  intro j
  rw [Nat.zero_add]
  rfl

theorem binary_not_head {y : View} (h : y.kind = .rBinaryExpression) :
    ¬ headKind y.kind ∧ y.isHole = false := by
  constructor
  · rw [h]
    rintro (h | h | h | h | h | h) <;> cases h
  · unfold View.isHole
    rw [h]
    rfl

theorem arg_kind (call : Bool) :
    (if call then Kind.rArgument else .rParameter) ≠ .rBracedExpressions ∧
    (if call then Kind.rArgument else .rParameter) ≠ .rIfStatement ∧
    (if call then Kind.rArgument else .rParameter) ≠ .rElseClause := by
  cases call <;> decide

mutual
theorem proper_annotate (hD : ∀ d ∈ D, ∃ s, d.Sound X s) : (e : Expr) → (r : Ref) →
    X.nodeAt r = some e.view → (e.annotate (D.map Deco.placed) r).Proper
  | .atom .., _, _ => by simp only [Expr.annotate, Expr.Proper]
  | .str .., _, _ => by simp only [Expr.annotate, Expr.Proper]
  | .paren _ l e t, r, h => by
    simp only [Expr.annotate, Expr.Proper]
    exact proper_annotate hD e _ (nodeAt_child h rfl)
  | .braced _ l es t, r, h => by
    simp only [Expr.annotate, Expr.Proper]
    refine ⟨fun hne => dangling_nil hD h (.inl ?_),
      proper_annotates hD es t r _ 1 h Parts.At.self.tok⟩
    cases es with
    | nil => exact absurd rfl hne
    | cons e es => exact ⟨1, e.view, rfl⟩
  | .unary _ p e, r, h => by
    simp only [Expr.annotate, Expr.Proper]
    exact proper_annotate hD e _ (nodeAt_child h rfl)
  | .binary _ x p y, r, h => by
    simp only [Expr.annotate, Expr.Proper]
    refine ⟨?_, proper_annotate hD x _ (nodeAt_child h rfl), proper_annotate hD y _ (nodeAt_child h rfl)⟩
    intro a x' p' y' hx
    have hc : X.nodeAt (r ++ [0]) = some x.view := nodeAt_child h rfl
    cases x with
    | binary b u p'' v =>
      simp only [Expr.annotate, Expr.binary.injEq] at hx
      rw [← hx.1]
      obtain ⟨h1, h2⟩ := binary_not_head (y := (Expr.binary b u p'' v).view) rfl
      exact ⟨leading_nil hD h rfl hc h1 h2, dangling_nil hD hc (.inl ⟨0, u.view, rfl⟩)⟩
    | _ => simp [Expr.annotate] at hx
  | .sel _ k x p y, r, h => by
    simp only [Expr.annotate, Expr.Proper]
    exact ⟨proper_annotate hD x _ (nodeAt_child h rfl), proper_annotate hD y _ (nodeAt_child h rfl)⟩
  | .call _ k f _ l items t, r, h => by
    simp only [Expr.annotate, Expr.Proper]
    have hc : X.nodeAt (r ++ [1]) = some (.node k.args (.tok l (items.view true t))) :=
      nodeAt_child h rfl
    refine ⟨fun hne => dangling_nil hD hc (.inl ?_), trailing_nil hD h rfl,
      proper_annotate hD f _ (nodeAt_child h rfl),
      proper_items hD true items t _ _ 1 hc Parts.At.self.tok⟩
    cases items with
    | nil => exact absurd rfl hne
    | last x => exact ⟨1, x.view true, rfl⟩
    | cons x s xs => exact ⟨1, x.view true, rfl⟩
  | .func _ kw _ l items t b, r, h => by
    simp only [Expr.annotate, Expr.Proper]
    have hc : X.nodeAt (r ++ [1]) = some (.node .rParameters (.tok l (items.view false t))) :=
      nodeAt_child h rfl
    refine ⟨fun hne => dangling_nil hD hc (.inl ?_),
      proper_items hD false items t _ _ 1 hc Parts.At.self.tok,
      proper_annotate hD b _ (nodeAt_child h rfl)⟩
    cases items with
    | nil => exact absurd rfl hne
    | last x => exact ⟨1, x.view false, rfl⟩
    | cons x s xs => exact ⟨1, x.view false, rfl⟩
  | .ite _ kw l c t b, r, h => by
    simp only [Expr.annotate, Expr.Proper]
    exact ⟨proper_annotate hD c _ (nodeAt_child h rfl), proper_annotate hD b _ (nodeAt_child h rfl)⟩
  | .itee _ kw l c t b _ el e, r, h => by
    simp only [Expr.annotate, Expr.Proper]
    have hc : X.nodeAt (r ++ [5]) = some (.node .rElseClause (.tok el (.sub e.view .nil))) :=
      nodeAt_child h rfl
    refine ⟨proper_annotate hD c _ (nodeAt_child h rfl), proper_annotate hD b _ (nodeAt_child h rfl),
      proper_annotate hD e _ ?_⟩
    have := nodeAt_child (i := 1) (y := e.view) hc rfl
    simpa using this
  | .for_ _ kw l v i s t b, r, h => by
    simp only [Expr.annotate, Expr.Proper]
    exact ⟨proper_annotate hD v _ (nodeAt_child h rfl), proper_annotate hD s _ (nodeAt_child h rfl),
      proper_annotate hD b _ (nodeAt_child h rfl)⟩
  | .while_ _ kw l c t b, r, h => by
    simp only [Expr.annotate, Expr.Proper]
    exact ⟨proper_annotate hD c _ (nodeAt_child h rfl), proper_annotate hD b _ (nodeAt_child h rfl)⟩
  | .repeat_ _ kw b, r, h => by
    simp only [Expr.annotate, Expr.Proper]
    exact proper_annotate hD b _ (nodeAt_child h rfl)
theorem proper_annotates (hD : ∀ d ∈ D, ∃ s, d.Sound X s) : (es : Exprs) → (t : Token) → (r : Ref) →
    (z : View) → (i : Nat) → X.nodeAt r = some z → (es.view t).At z i →
    (es.annotate (D.map Deco.placed) r i).Proper
  | .nil, _, _, _, _, _, _ => by simp only [Exprs.annotate, Exprs.Proper]
  | .cons e es, t, r, z, i, h, ha => by
    simp only [Exprs.annotate, Exprs.Proper]
    rw [Exprs.view] at ha
    exact ⟨proper_annotate hD e _ (nodeAt_child h ha.sub.1),
      proper_annotates hD es t r z (i + 1) h ha.sub.2⟩
theorem proper_items (hD : ∀ d ∈ D, ∃ s, d.Sound X s) (call : Bool) : (xs : Items) → (t : Token) →
    (r : Ref) → (z : View) → (i : Nat) → X.nodeAt r = some z → (xs.view call t).At z i →
    (xs.annotate (D.map Deco.placed) r i).Proper
  | .nil, _, _, _, _, _, _ => by simp only [Items.annotate, Items.Proper]
  | .last x, t, r, z, i, h, ha => by
    simp only [Items.annotate, Items.Proper]
    rw [Items.view] at ha
    exact proper_arg hD call x _ (nodeAt_child h ha.sub.1)
  | .cons x s xs, t, r, z, i, h, ha => by
    simp only [Items.annotate, Items.Proper]
    rw [Items.view] at ha
    exact ⟨proper_arg hD call x _ (nodeAt_child h ha.sub.1),
      proper_items hD call xs t r z (i + 2) h ha.sub.2.tok⟩
theorem proper_arg (hD : ∀ d ∈ D, ∃ s, d.Sound X s) (call : Bool) : (x : Arg) → (r : Ref) →
    X.nodeAt r = some (x.view call) → (x.annotate (D.map Deco.placed) r).Proper
  | .hole _, r, h => by
    simp only [Arg.annotate, Arg.Proper]
    exact dangling_nil hD h (.inr ⟨rfl, arg_kind call⟩)
  | .val _ e, r, h => by
    simp only [Arg.annotate, Arg.Proper]
    exact ⟨dangling_nil hD h (.inl ⟨0, e.view, rfl⟩), proper_annotate hD e _ (nodeAt_child h rfl)⟩
  | .name _ _ n q, r, h => by
    simp only [Arg.annotate, Arg.Proper]
    have hc : X.nodeAt (r ++ [0]) = some (.node .rArgumentNameClause (.sub n.view (.one q))) :=
      nodeAt_child h rfl
    refine ⟨dangling_nil hD h (.inl ⟨0, _, rfl⟩), proper_annotate hD n _ ?_⟩
    have := nodeAt_child (i := 0) (y := n.view) hc rfl
    simpa using this
  | .named _ _ n q e, r, h => by
    simp only [Arg.annotate, Arg.Proper]
    have hc : X.nodeAt (r ++ [0]) = some (.node .rArgumentNameClause (.sub n.view (.one q))) :=
      nodeAt_child h rfl
    refine ⟨dangling_nil hD h (.inl ⟨0, _, rfl⟩), proper_annotate hD n _ ?_,
      proper_annotate hD e _ (nodeAt_child h rfl)⟩
    have := nodeAt_child (i := 0) (y := n.view) hc rfl
    simpa using this
  | .pdef _ n _ q e, r, h => by
    simp only [Arg.annotate, Arg.Proper]
    have hc : X.nodeAt (r ++ [1]) = some (.node .rParameterDefault (.tok q (.sub e.view .nil))) :=
      nodeAt_child h rfl
    refine ⟨dangling_nil hD h (.inl ⟨0, _, rfl⟩), proper_annotate hD n _ (nodeAt_child h rfl),
      proper_annotate hD e _ ?_⟩
    have := nodeAt_child (i := 1) (y := e.view) hc rfl
    simpa using this
end

end Verif.Format
