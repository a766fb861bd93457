import Verif.Lemmas.PlacementVerbs
import Verif.Spec.Steady

/-!
# Trees without risky comments are calm
-/

namespace Verif.Format
open Verif.Syntax

variable {X : View} {D : List Deco}

/-- No comment of the file is risky. -/
def Calmed (X : View) (D : List Deco) : Prop := ∀ d ∈ D, (∃ s, d.Sound X s) ∧ d.risky X = false

theorem Calmed.sound (h : Calmed X D) : ∀ d ∈ D, ∃ s, d.Sound X s := fun d hd => (h d hd).1

theorem not_risky {d : Deco} (h : d.risky X = false) :
    (d.enclosing.kind ≠ .rUnaryExpression ∧ d.enclosing.kind ≠ .rCall ∧ d.enclosing.kind ≠ .rSubset ∧
      d.enclosing.kind ≠ .rSubset2 ∧ d.enclosing.kind ≠ .rNamespaceExpression ∧
      d.enclosing.kind ≠ .rStringValue) ∧
    ∀ z, X.nodeAt d.ref.dropLast = some z → z.kind = .rUnaryExpression →
      ¬ (headKind d.enclosing.kind ∧ d.enclosing.kind ≠ .rElseClause) ∧
        d.enclosing.kind ≠ .rBracedExpressions := by
  unfold Deco.risky at h
  rw [Bool.or_eq_false_iff] at h
  obtain ⟨h1, h2⟩ := h
  constructor
  · refine ⟨?_, ?_, ?_, ?_, ?_, ?_⟩ <;>
    · intro hk
      rw [hk] at h1
      revert h1
      decide
  · intro z hz hk
    rw [hz, Option.map_some, hk] at h2
    have h3 : [Kind.rForStatement, .rWhileStatement, .rRepeatStatement, .rFunctionDefinition, .rIfStatement,
      .rBracedExpressions].contains d.enclosing.kind = false := by
      rw [Bool.and_eq_false_iff] at h2
      rcases h2 with h2 | h2
      · exact h2
      · exact absurd h2 (by decide)
    constructor
    · rintro ⟨h | h | h | h | h | h, hn⟩
      · rw [h] at h3; revert h3; decide
      · rw [h] at h3; revert h3; decide
      · rw [h] at h3; revert h3; decide
      · rw [h] at h3; revert h3; decide
      · rw [h] at h3; revert h3; decide
      · exact hn h
    · intro h
      rw [h] at h3
      revert h3
      decide

/-- How a comment reaches child `j` of the node `r`: from inside the child, from the node, or through
braces, `if` and `else`. -/
theorem reaches {d : Deco} {s r : Ref} {j : Nat} {z : View} (hs : d.Sound X s) (hz : X.nodeAt r = some z)
    (ht : (placeComment d).target = r ++ [j]) :
    (s = [] ∧ d.ref = r ++ [j]) ∨ (s = [j] ∧ d.ref = r ∧ d.enclosing = z) ∨
    (∃ s0, s = s0 ++ [j] ∧ s0 ≠ [] ∧ r = d.ref ++ s0 ∧ d.enclosing.nodeAt s0 = some z ∧
      (z.kind = .rBracedExpressions ∨ z.kind = .rIfStatement ∨ z.kind = .rElseClause)) := by
  rw [hs.fate.target] at ht
  by_cases h0 : s = []
  · subst h0
    rw [List.append_nil] at ht
    exact .inl ⟨rfl, ht⟩
  · obtain ⟨s0, i, rfl⟩ : ∃ s0 i, s = s0 ++ [i] := ⟨_, _, (List.dropLast_concat_getLast h0).symm⟩
    rw [← List.append_assoc] at ht
    obtain ⟨h1, h2⟩ := List.append_inj' ht rfl
    simp at h2
    subst h2
    by_cases h3 : s0 = []
    · subst h3
      rw [List.append_nil] at h1
      refine .inr (.inl ⟨rfl, h1, ?_⟩)
      have := hs.at_
      rw [h1, hz] at this
      cases this
      rfl
    · refine .inr (.inr ⟨s0, rfl, h3, h1.symm, ?_, ?_⟩)
      · rw [← nodeAt_suffix hs, h1, hz]
      · obtain ⟨z', w, h4, h5, -⟩ := hs.fate.inner s0 [i] rfl h3 (by simp)
        rw [← nodeAt_suffix hs, h1, hz] at h4
        cases h4
        exact h5

theorem atomKind_plain {k k' : Kind} (h : atomKind k = some k') :
    k' ≠ .rRoot ∧ k' ≠ .rBracedExpressions ∧ k' ≠ .rIfStatement ∧ k' ≠ .rElseClause ∧ ¬ headKind k' := by
  unfold headKind
  cases k <;> simp only [atomKind, Option.some.injEq, reduceCtorEq] at h <;> subst h <;> decide

/-- Nothing dangles from a node other than braces. -/
theorem dangling_none (hD : Calmed X D) {r : Ref} {e : Expr} {eq : Bool} (hz : X.nodeAt r = some e.view)
    (hg : e.gram eq = true) (hb : e.isBraced = false) : (annAt (D.map Deco.placed) r).dangling = [] := by
  cases e with
  | atom a k t =>
    have hk := atomKind_plain (k := t.kind) (k' := k) (by simpa [Expr.gram] using hg)
    apply attached_nil
    intro d hd hp
    obtain ⟨s, hs⟩ := hD.sound d hd
    have ht : r = d.ref ++ s := by rw [← hs.fate.target, hp]
    have hn : d.enclosing.nodeAt s = some (Expr.atom a k t).view := by rw [← nodeAt_suffix hs, ← ht, hz]
    by_cases h0 : s = []
    · subst h0
      have he : d.enclosing = _ := Option.some.inj hn
      have h1 := hs.ok.gap_lt
      have h2 := hs.ok.gap_pos
      rw [he] at h1 h2
      simp [Expr.view, Parts.one, View.parts, Parts.length] at h1
      exact hk.1 (h2 h1)
    · obtain ⟨⟨z', w, h1, h2, -⟩, -⟩ := hs.fate.dangling (by rw [hp]) h0
      rw [hn] at h1
      cases h1
      rcases h2 with h2 | h2 | h2
      · exact hk.2.1 h2
      · exact hk.2.2.1 h2
      · exact hk.2.2.2.1 h2
  | str a q c l =>
    apply attached_nil
    intro d hd hp
    obtain ⟨s, hs⟩ := hD.sound d hd
    have ht : r = d.ref ++ s := by rw [← hs.fate.target, hp]
    have hn : d.enclosing.nodeAt s = some (Expr.str a q c l).view := by rw [← nodeAt_suffix hs, ← ht, hz]
    by_cases h0 : s = []
    · subst h0
      have he : d.enclosing = _ := Option.some.inj hn
      have h1 := (not_risky (hD d hd).2).1
      rw [he] at h1
      exact h1.2.2.2.2.2 rfl
    · obtain ⟨⟨z', w, h1, h2, -⟩, -⟩ := hs.fate.dangling (by rw [hp]) h0
      rw [hn] at h1
      cases h1
      rcases h2 with h2 | h2 | h2 <;> cases h2
  | braced => cases hb
  | paren _ l e _ => exact dangling_nil hD.sound hz (.inl ⟨1, e.view, rfl⟩)
  | unary _ q e => exact dangling_nil hD.sound hz (.inl ⟨1, e.view, rfl⟩)
  | binary _ x _ _ => exact dangling_nil hD.sound hz (.inl ⟨0, x.view, rfl⟩)
  | sel _ k x _ _ => exact dangling_nil hD.sound hz (.inl ⟨0, x.view, rfl⟩)
  | call _ k f _ _ _ _ => exact dangling_nil hD.sound hz (.inl ⟨0, f.view, rfl⟩)
  | func _ _ _ _ _ _ b => exact dangling_nil hD.sound hz (.inl ⟨2, b.view, rfl⟩)
  | ite _ _ _ c _ _ => exact dangling_nil hD.sound hz (.inl ⟨2, c.view, rfl⟩)
  | itee _ _ _ c _ _ _ _ _ => exact dangling_nil hD.sound hz (.inl ⟨2, c.view, rfl⟩)
  | for_ _ _ _ v _ _ _ _ => exact dangling_nil hD.sound hz (.inl ⟨2, v.view, rfl⟩)
  | while_ _ _ _ c _ _ => exact dangling_nil hD.sound hz (.inl ⟨2, c.view, rfl⟩)
  | repeat_ _ _ b => exact dangling_nil hD.sound hz (.inl ⟨1, b.view, rfl⟩)

/-- The argument of a unary operator has no comments. -/
theorem unary_bare (hD : Calmed X D) {r : Ref} {a : Ann} {q : Token} {e : Expr} {eq : Bool}
    (hz : X.nodeAt r = some (Expr.unary a q e).view) (hg : e.gram eq = true) :
    (annAt (D.map Deco.placed) (r ++ [1])).any = false := by
  have hc : X.nodeAt (r ++ [1]) = some e.view := nodeAt_child hz rfl
  have hl : (annAt (D.map Deco.placed) (r ++ [1])).leading = [] := by
    apply attached_nil
    intro d hd hp
    obtain ⟨s, hs⟩ := hD.sound d hd
    obtain ⟨h1, h2⟩ := not_risky (hD d hd).2
    rcases reaches hs hz (by rw [hp]) with ⟨rfl, h3⟩ | ⟨-, -, h3⟩ | ⟨s0, -, -, -, -, h3⟩
    · rcases hs.fate.own rfl with ⟨-, h4⟩ | ⟨h4, -⟩
      · refine (h2 _ (by rw [h3, List.dropLast_concat, hz]) rfl).1 ⟨h4, ?_⟩
        have := hs.at_
        rw [h3, hc] at this
        rw [← Option.some.inj this]
        cases e with
        | atom a k t =>
          exact (atomKind_plain (k := t.kind) (k' := k) (by simpa [Expr.gram] using hg)).2.2.2.1
        | sel _ k _ _ _ => cases k <;> (intro h; cases h)
        | call _ k _ _ _ _ _ => cases k <;> (intro h; cases h)
        | _ => intro h; cases h
      · rw [hp] at h4; cases h4
    · rw [h3] at h1; exact h1.1 rfl
    · rcases h3 with h3 | h3 | h3 <;> cases h3
  have ht : (annAt (D.map Deco.placed) (r ++ [1])).trailing = [] := trailing_nil hD.sound hz rfl
  have hd : (annAt (D.map Deco.placed) (r ++ [1])).dangling = [] := by
    cases hb : e.isBraced with
    | false => exact dangling_none hD hc hg hb
    | true =>
      apply attached_nil
      intro d hd hp
      obtain ⟨s, hs⟩ := hD.sound d hd
      obtain ⟨h1, h2⟩ := not_risky (hD d hd).2
      rcases reaches hs hz (by rw [hp]) with ⟨rfl, h3⟩ | ⟨-, -, h3⟩ | ⟨s0, -, -, -, -, h3⟩
      · refine (h2 _ (by rw [h3, List.dropLast_concat, hz]) rfl).2 ?_
        have := hs.at_
        rw [h3, hc] at this
        rw [← Option.some.inj this]
        cases e <;> first | rfl | cases hb
      · rw [h3] at h1; exact h1.1 rfl
      · rcases h3 with h3 | h3 | h3 <;> cases h3
  unfold Ann.any
  rw [hl, ht, hd]
  rfl

/-- Nothing leads the arguments of a call. -/
theorem args_bare (hD : Calmed X D) {r : Ref} {a aa : Ann} {k : CallKind} {f : Expr} {l t : Token}
    {items : Items} (hz : X.nodeAt r = some (Expr.call a k f aa l items t).view) :
    (annAt (D.map Deco.placed) (r ++ [1])).leading = [] := by
  have hc : X.nodeAt (r ++ [1]) = some (.node k.args (.tok l (items.view true t))) := nodeAt_child hz rfl
  apply attached_nil
  intro d hd hp
  obtain ⟨s, hs⟩ := hD.sound d hd
  obtain ⟨h1, -⟩ := not_risky (hD d hd).2
  rcases reaches hs hz (by rw [hp]) with ⟨rfl, h3⟩ | ⟨-, -, h3⟩ | ⟨s0, -, -, -, -, h3⟩
  · rcases hs.fate.own rfl with ⟨-, h4⟩ | ⟨h4, -⟩
    · have := hs.at_
      rw [h3, hc] at this
      rw [← Option.some.inj this] at h4
      cases k <;> rcases h4 with h | h | h | h | h | h <;> cases h
    · rw [hp] at h4; cases h4
  · rw [h3] at h1
    cases k
    · exact h1.2.1 rfl
    · exact h1.2.2.1 rfl
    · exact h1.2.2.2.1 rfl
  · cases k <;> rcases h3 with h3 | h3 | h3 <;> cases h3

theorem selector_kind {y : Expr} (h : y.selector = true) : ¬ headKind y.view.kind := by
  cases y with
  | atom a k t =>
    simp only [Expr.selector, Bool.and_eq_true, beq_iff_eq] at h
    exact (atomKind_plain h.1).2.2.2.2
  | str => rintro (h | h | h | h | h | h) <;> cases h
  | _ => cases h

/-- Nothing leads the right operand of `::`. -/
theorem name_bare (hD : Calmed X D) {r : Ref} {a : Ann} {x y : Expr} {q : Token}
    (hz : X.nodeAt r = some (Expr.sel a .namespace x q y).view) (hy : y.selector = true) :
    (annAt (D.map Deco.placed) (r ++ [2])).leading = [] := by
  have hc : X.nodeAt (r ++ [2]) = some y.view := nodeAt_child hz rfl
  apply attached_nil
  intro d hd hp
  obtain ⟨s, hs⟩ := hD.sound d hd
  obtain ⟨h1, -⟩ := not_risky (hD d hd).2
  rcases reaches hs hz (by rw [hp]) with ⟨rfl, h3⟩ | ⟨-, -, h3⟩ | ⟨s0, -, -, -, -, h3⟩
  · rcases hs.fate.own rfl with ⟨-, h4⟩ | ⟨h4, -⟩
    · have := hs.at_
      rw [h3, hc] at this
      rw [← Option.some.inj this] at h4
      exact selector_kind hy h4
    · rw [hp] at h4; cases h4
  · rw [h3] at h1
    exact h1.2.2.2.2.1 rfl
  · rcases h3 with h3 | h3 | h3 <;> cases h3

theorem placeBody_target (r : Ref) (y : View) : ∃ q, (placeBody r y).target = r ++ q := by
  unfold placeBody
  split
  · split
    · exact ⟨_, rfl⟩
    · exact ⟨[], (List.append_nil _).symm⟩
  · exact ⟨[], (List.append_nil _).symm⟩

theorem placeAlternative_target {r : Ref} {y : View} {p : Placement} (h : placeAlternative r y = some p) :
    ∃ q, p.target = r ++ q := by
  unfold placeAlternative at h
  split at h
  · split at h
    · cases h
      obtain ⟨q, hq⟩ := placeBody_target (r ++ [4]) ‹View›
      exact ⟨4 :: q, by rw [hq]; simp⟩
    · cases h
  · cases h
    exact placeBody_target r y

theorem placeAlternative_expr (r : Ref) (e : Expr) {eq : Bool} (hg : e.gram eq = true) :
    placeAlternative r e.view ≠ none := by
  unfold placeAlternative
  split
  · rename_i hk
    cases e with
    | ite _ _ _ _ _ t => simp [Expr.view, View.parts, Parts.slot]
    | itee => simp [Expr.view, View.parts, Parts.slot]
    | atom a k t =>
      exact absurd hk (atomKind_plain (k := t.kind) (k' := k) (by simpa [Expr.gram] using hg)).2.2.1
    | sel _ k _ _ _ => cases k <;> cases hk
    | call _ k _ _ _ _ _ => cases k <;> cases hk
    | _ => cases hk
  · simp

theorem orElse_none {d : Deco} {f : Deco → Option Placement} {x : Option Placement}
    (h : orElse d f x = none) : f d = none ∧ x = none := by
  cases x with
  | none => exact ⟨h, rfl⟩
  | some q => cases h

/-- Comments directly inside an else clause do not go to the clause itself. -/
theorem else_leaves {d : Deco} {w : Where} {el : Token} {y : View} (ok : d.Ok)
    (he : d.enclosing = .node .rElseClause (.tok el (.sub y .nil))) : placeComment d ≠ ⟨w, d.ref⟩ := by
  intro hp
  have hg := ok.gap_lt
  have hg' := ok.gap_pos
  rw [he] at hg hg'
  have hgap : d.gap = 1 := by
    have : d.gap < 2 := hg
    have : d.gap ≠ 0 := fun h => by cases hg' h
    omega
  have hpr : d.preceding = none := by rw [ok.preceding, hgap, he]; rfl
  have hfo : d.following = some (1, y) := by rw [ok.following, hgap, he]; rfl
  have hk : d.enclosing.kind = .rElseClause := by rw [he]; rfl
  have hdef : placeDefault d ≠ ⟨w, d.ref⟩ := by
    unfold placeDefault
    rw [hpr, hfo]
    cases d.position <;> simp
  unfold placeComment at hp
  split at hp
  · exact hdef hp
  · generalize hx : (orElse d handleHole _ : Option Placement) = x at hp
    cases x with
    | none => exact hdef hp
    | some p =>
      rw [Option.getD_some] at hp
      subst hp
      rcases orElse_some hx with h | hx
      · simp [handleHole, hpr] at h
      rcases orElse_some hx with h | hx
      · simp [handleArgument, hk] at h
      rcases orElse_some hx with h | hx
      · simp [handleNameClause, hk] at h
      rcases orElse_some hx with h | hx
      · simp [handleParen, hk] at h
      rcases orElse_some hx with h | hx
      · unfold handleElse at h
        rw [if_pos hk] at h
        split at h
        · split at h
          · obtain ⟨q, hq⟩ := placeAlternative_target h
            have := congrArg List.length hq
            simp at this
          · cases h
        · cases h
      rcases orElse_some hx with h | hx
      · simp [handleIf, hk] at h
      rcases orElse_some hx with h | hx
      · simp [handleRepeat, hk] at h
      rcases orElse_some hx with h | hx
      · simp [handleLoop, hk] at h
      rcases orElse_some hx with h | hx
      · simp [handleFunction, hk] at h
      · simp [handleLoop, hk] at hx

/-- Comments directly inside an `if` statement do not lead its else clause. -/
theorem if_leaves {d : Deco} {a ea : Ann} {kw l t el : Token} {c b e : Expr} {eq : Bool} (ok : d.Ok)
    (hg : e.gram eq = true) (he : d.enclosing = (Expr.itee a kw l c t b ea el e).view) :
    placeComment d ≠ ⟨.leading, d.ref ++ [5]⟩ := by
  intro hp
  have hlt := ok.gap_lt
  have hgap := ok.gap_pos
  rw [he] at hlt hgap
  have hk : d.enclosing.kind = .rIfStatement := by rw [he]; rfl
  have hlt : d.gap < 6 := hlt
  have hgap : d.gap ≠ 0 := fun h => by cases hgap h
  have hpf : (at? d.preceding ≠ some 5) ∧
      ((∃ i y, i ≠ 5 ∧ d.following = some (i, y)) ∨
        (∃ y z, d.preceding = some (4, y) ∧ d.following = some (5, z) ∧ z.kind = .rElseClause)) := by
    rw [ok.preceding, ok.following, he]
    have : d.gap = 1 ∨ d.gap = 2 ∨ d.gap = 3 ∨ d.gap = 4 ∨ d.gap = 5 := by omega
    rcases this with h | h | h | h | h <;> rw [h]
    · exact ⟨(fun h => by cases h), .inl ⟨2, _, by decide, rfl⟩⟩
    · exact ⟨(fun h => by cases h), .inl ⟨2, _, by decide, rfl⟩⟩
    · exact ⟨(fun h => by cases h), .inl ⟨4, _, by decide, rfl⟩⟩
    · exact ⟨(fun h => by cases h), .inl ⟨4, _, by decide, rfl⟩⟩
    · exact ⟨(fun h => by cases h), .inr ⟨_, _, rfl, rfl, rfl⟩⟩
  obtain ⟨hpre, hfol⟩ := hpf
  have hdef : (d.position = .sameLine ∨ handleIf d = none) → placeDefault d ≠ ⟨.leading, d.ref ++ [5]⟩ := by
    intro hpos
    rcases hfol with ⟨i, y, h5, hf⟩ | ⟨y, z, hp', hf, hzk⟩
    · unfold placeDefault
      rw [hf]
      split <;> simp_all
    · unfold placeDefault
      rw [hf, hp']
      cases hq : d.position with
      | ownLine =>
        exfalso
        rcases hpos with h | h
        · rw [hq] at h; cases h
        · unfold handleIf at h
          rw [if_pos hk, hp', hf, he] at h
          simp [Expr.view, View.parts, Parts.slot, at?, hq] at h
          exact placeAlternative_expr _ e hg (h rfl)
      | endOfLine => simp
      | sameLine => simp
  unfold placeComment at hp
  split at hp
  · rename_i hpos
    exact hdef (.inl hpos) hp
  · generalize hx : (orElse d handleHole _ : Option Placement) = x at hp
    cases x with
    | none =>
      have h1 := (orElse_none hx).2
      have h1 := (orElse_none h1).2
      have h1 := (orElse_none h1).2
      have h1 := (orElse_none h1).2
      have h1 := (orElse_none h1).2
      exact hdef (.inr (orElse_none h1).1) hp
    | some p =>
      rw [Option.getD_some] at hp
      subst hp
      rcases orElse_some hx with h | hx
      · unfold handleHole at h
        split at h
        · rename_i i hole hpi
          have hi : i ≠ 5 := by
            intro h5
            rw [hpi, h5] at hpre
            exact hpre rfl
          split at h
          · split at h
            · split at h
              · split at h
                · simp at h
                · simp [hi] at h
              · simp [hi] at h
            · split at h
              · rename_i j y hj
                split at h
                · rename_i hyk
                  rcases hfol with ⟨i', y', h5, hf⟩ | ⟨y', z, hp', hf, hzk⟩
                  · rw [hj] at hf
                    cases hf
                    simp at h
                    exact h5 h
                  · rw [hj] at hf
                    cases hf
                    rw [hyk.1] at hzk
                    cases hzk
                · simp [hi] at h
              · simp [hi] at h
          · cases h
        · cases h
      rcases orElse_some hx with h | hx
      · simp [handleArgument, hk] at h
      rcases orElse_some hx with h | hx
      · simp [handleNameClause, hk] at h
      rcases orElse_some hx with h | hx
      · simp [handleParen, hk] at h
      rcases orElse_some hx with h | hx
      · simp [handleElse, hk] at h
      rcases orElse_some hx with h | hx
      · have hbody : ∀ y : View, placeBody (d.ref ++ [4]) y ≠ ⟨.leading, d.ref ++ [5]⟩ := by
          intro y hy
          obtain ⟨q, hq⟩ := placeBody_target (d.ref ++ [4]) y
          rw [hy, List.append_assoc] at hq
          have := List.append_cancel_left hq
          simp at this
        unfold handleIf at h
        rw [if_pos hk] at h
        split at h
        · split at h
          · cases h
          · split at h
            · exact hbody _ (Option.some.inj h)
            · split at h
              · split at h
                · split at h
                  · split at h
                    · exact hbody _ (Option.some.inj h)
                    · obtain ⟨q, hq⟩ := placeAlternative_target h
                      have := congrArg List.length hq
                      simp at this
                  · cases h
                · cases h
              · cases h
        · cases h
      rcases orElse_some hx with h | hx
      · simp [handleRepeat, hk] at h
      rcases orElse_some hx with h | hx
      · simp [handleLoop, hk] at h
      rcases orElse_some hx with h | hx
      · simp [handleFunction, hk] at h
      · simp [handleLoop, hk] at hx

/-- Nothing leads an else clause. -/
theorem clause_bare (hD : Calmed X D) {r : Ref} {a ea : Ann} {kw l t el : Token} {c b e : Expr} {eq : Bool}
    (hz : X.nodeAt r = some (Expr.itee a kw l c t b ea el e).view) (hg : e.gram eq = true) :
    (annAt (D.map Deco.placed) (r ++ [5])).leading = [] := by
  have hc : X.nodeAt (r ++ [5]) = some (.node .rElseClause (.tok el (.sub e.view .nil))) :=
    nodeAt_child hz rfl
  apply attached_nil
  intro d hd hp
  obtain ⟨s, hs⟩ := hD.sound d hd
  rcases reaches hs hz (by rw [hp]) with ⟨-, h3⟩ | ⟨-, h2, h3⟩ | ⟨s0, h5, h6, -, h7, -⟩
  · have he := hs.at_
    rw [h3, hc] at he
    exact else_leaves hs.ok (Option.some.inj he).symm (by rw [h3]; exact hp)
  · exact if_leaves hs.ok hg h3 (by rw [h2]; exact hp)
  · exact hs.fate.clause s0 _ h5 h6 h7 rfl

theorem calm_selector {e : Expr} (eq : Bool) (h : e.selector = true) : e.gram eq = true := by
  cases e with
  | atom => simp only [Expr.selector, Bool.and_eq_true] at h; exact h.1
  | str => exact h
  | _ => cases h

theorem calm_argName {e : Expr} (eq : Bool) (h : e.argName = true) : e.gram eq = true := by
  cases e with
  | atom => simp only [Expr.argName, Bool.and_eq_true] at h; exact h.1
  | str => exact h
  | _ => cases h

theorem calm_parName {e : Expr} (eq : Bool) (h : e.parName = true) : e.gram eq = true := by
  cases e with
  | atom => simp only [Expr.parName, Bool.and_eq_true] at h; exact h.1
  | _ => cases h

theorem selector_terminal {P : List Placed} {r : Ref} {e : Expr} (h : e.selector = true) :
    (e.annotate P r).isTerminal = true := by
  cases e with
  | atom => rfl
  | str => rfl
  | _ => cases h

mutual
theorem calm_annotate (hD : Calmed X D) : (e : Expr) → (r : Ref) → (eq : Bool) → e.gram eq = true →
    X.nodeAt r = some e.view →
    (e.annotate (D.map Deco.placed) r).calm = true ∧ tailNl (e.annotate (D.map Deco.placed) r) = false
  | .atom a k t, r, eq, hg, h => by
    refine ⟨?_, ?_⟩
    · simp only [Expr.gram, Bool.and_eq_true, beq_iff_eq] at hg
      rw [Expr.annotate, Expr.calm, bne_iff_ne]
      intro h
      simp [h, atomKind] at hg
    simp only [Expr.annotate, tailNl, dangling_none hD h hg rfl]
    rfl
  | .str a k c t, r, eq, hg, h => by
    refine ⟨rfl, ?_⟩
    simp only [Expr.annotate, tailNl, dangling_none hD h hg rfl]
    rfl
  | .paren a l e t, r, eq, hg, h => by
    have hd := dangling_none hD h hg rfl
    simp only [Expr.gram, Bool.and_eq_true] at hg
    have h1 := calm_annotate hD e (r ++ [1]) _ hg.1.2 (nodeAt_child h rfl)
    simp only [Expr.annotate, tailNl, Expr.calm, hd]
    exact ⟨h1.1, rfl⟩
  | .braced a l es t, r, eq, hg, h => by
    simp only [Expr.gram, Bool.and_eq_true] at hg
    simp only [Expr.annotate, tailNl, Expr.calm]
    exact ⟨calms_annotate hD es t r _ 1 hg.1.2 h Parts.At.self.tok, trivial⟩
  | .unary a q e, r, eq, hg, h => by
    have hd := dangling_none hD h hg rfl
    simp only [Expr.gram] at hg
    split at hg
    · simp only [Bool.and_eq_true] at hg
      have h1 := calm_annotate hD e (r ++ [1]) _ hg.1 (nodeAt_child h rfl)
      simp only [Expr.annotate, tailNl, Expr.calm, hd, annotate_ann, unary_bare hD h hg.1, h1.2]
      exact ⟨h1.1, rfl⟩
    · cases hg
  | .binary a x q y, r, eq, hg, h => by
    have hd := dangling_none hD h hg rfl
    simp only [Expr.gram] at hg
    split at hg
    · simp only [Bool.and_eq_true] at hg
      have h1 := calm_annotate hD x (r ++ [0]) _ hg.1.1.1.1 (nodeAt_child h rfl)
      have h2 := calm_annotate hD y (r ++ [2]) _ hg.1.1.1.2 (nodeAt_child h rfl)
      simp only [Expr.annotate, tailNl, Expr.calm, hd, h1.1, h1.2, h2.1, h2.2]
      exact ⟨rfl, rfl⟩
    · cases hg
  | .sel a .extract x q y, r, eq, hg, h => by
    have hd := dangling_none hD h hg rfl
    simp only [Expr.gram, Bool.and_eq_true] at hg
    have h1 := calm_annotate hD x (r ++ [0]) _ hg.1.1.1 (nodeAt_child h rfl)
    have h2 := calm_annotate hD y (r ++ [2]) _ (calm_selector true hg.2) (nodeAt_child h rfl)
    simp only [Expr.annotate, tailNl, Expr.calm, hd, h1.1, h1.2, h2.1, h2.2]
    exact ⟨rfl, rfl⟩
  | .sel a .namespace x q y, r, eq, hg, h => by
    have hd := dangling_none hD h hg rfl
    simp only [Expr.gram, Bool.and_eq_true] at hg
    have h1 := calm_annotate hD x (r ++ [0]) _ (calm_selector true hg.1.1) (nodeAt_child h rfl)
    have h2 := calm_annotate hD y (r ++ [2]) _ (calm_selector true hg.2) (nodeAt_child h rfl)
    simp only [Expr.annotate, tailNl, Expr.calm, hd, h1.1, h1.2, h2.1, h2.2, annotate_ann,
      name_bare hD h hg.2, selector_terminal hg.2]
    exact ⟨rfl, rfl⟩
  | .call a k f aa l items t, r, eq, hg, h => by
    have hd := dangling_none hD h hg rfl
    simp only [Expr.gram, Bool.and_eq_true] at hg
    have h1 := calm_annotate hD f (r ++ [0]) _ hg.1.1.1.1 (nodeAt_child h rfl)
    have hc : X.nodeAt (r ++ [1]) = some (.node k.args (.tok l (items.view true t))) := nodeAt_child h rfl
    have h2 := calmArgs_annotate hD items true t _ _ 1 hg.1.2 hc Parts.At.self.tok
    simp only [Expr.annotate, tailNl, Expr.calm, hd, h1.1, h1.2, h2, args_bare hD h]
    exact ⟨rfl, rfl⟩
  | .func a kw pa l items t b, r, eq, hg, h => by
    have hd := dangling_none hD h hg rfl
    simp only [Expr.gram, Bool.and_eq_true] at hg
    have hc : X.nodeAt (r ++ [1]) = some (.node .rParameters (.tok l (items.view false t))) :=
      nodeAt_child h rfl
    have h1 := calmPars_annotate hD items t _ _ 1 hg.1.1.1.2 hc Parts.At.self.tok
    have h2 := calm_annotate hD b (r ++ [2]) _ hg.1.2 (nodeAt_child h rfl)
    simp only [Expr.annotate, tailNl, Expr.calm, hd, h1, h2.1, h2.2]
    exact ⟨rfl, rfl⟩
  | .ite a kw l c t b, r, eq, hg, h => by
    have hd := dangling_none hD h hg rfl
    simp only [Expr.gram, Bool.and_eq_true] at hg
    have h1 := calm_annotate hD c (r ++ [2]) _ hg.1.1.1.2 (nodeAt_child h rfl)
    have h2 := calm_annotate hD b (r ++ [4]) _ hg.1.2 (nodeAt_child h rfl)
    simp only [Expr.annotate, tailNl, Expr.calm, hd, h1.1, h2.1, h2.2]
    exact ⟨rfl, rfl⟩
  | .itee a kw l c t b ea el e, r, eq, hg, h => by
    have hd := dangling_none hD h hg rfl
    simp only [Expr.gram, Bool.and_eq_true] at hg
    have hc : X.nodeAt (r ++ [5]) = some (.node .rElseClause (.tok el (.sub e.view .nil))) :=
      nodeAt_child h rfl
    have h0 := clause_bare hD h hg.1.2
    have hd' := dangling_nil hD.sound hc (.inl ⟨1, e.view, rfl⟩)
    have h1 := calm_annotate hD c (r ++ [2]) _ hg.1.1.1.1.1.1.1.2 (nodeAt_child h rfl)
    have h2 := calm_annotate hD b (r ++ [4]) _ hg.1.1.1.1.1.2 (nodeAt_child h rfl)
    have h3 := calm_annotate hD e (r ++ [5] ++ [1]) _ hg.1.2 (nodeAt_child (i := 1) (y := e.view) hc rfl)
    rw [List.append_assoc] at h3
    have h3' : (e.annotate (D.map Deco.placed) (r ++ [5, 1])).calm = true ∧
      tailNl (e.annotate (D.map Deco.placed) (r ++ [5, 1])) = false := h3
    simp only [Expr.annotate, tailNl, Expr.calm, hd, hd', h0, h1.1, h2.1, h2.2, h3'.1, h3'.2]
    exact ⟨rfl, rfl⟩
  | .for_ a kw l v i s t b, r, eq, hg, h => by
    have hd := dangling_none hD h hg rfl
    simp only [Expr.gram, Bool.and_eq_true] at hg
    have h1 := calm_annotate hD v (r ++ [2]) _ (calm_parName true hg.1.1.1.1.1.2) (nodeAt_child h rfl)
    have h2 := calm_annotate hD s (r ++ [4]) _ hg.1.1.1.2 (nodeAt_child h rfl)
    have h3 := calm_annotate hD b (r ++ [6]) _ hg.1.2 (nodeAt_child h rfl)
    simp only [Expr.annotate, tailNl, Expr.calm, hd, h1.1, h2.1, h3.1]
    exact ⟨rfl, rfl⟩
  | .while_ a kw l c t b, r, eq, hg, h => by
    have hd := dangling_none hD h hg rfl
    simp only [Expr.gram, Bool.and_eq_true] at hg
    have h1 := calm_annotate hD c (r ++ [2]) _ hg.1.1.1.2 (nodeAt_child h rfl)
    have h2 := calm_annotate hD b (r ++ [4]) _ hg.1.2 (nodeAt_child h rfl)
    simp only [Expr.annotate, tailNl, Expr.calm, hd, h1.1, h2.1]
    exact ⟨rfl, rfl⟩
  | .repeat_ a kw b, r, eq, hg, h => by
    have hd := dangling_none hD h hg rfl
    simp only [Expr.gram, Bool.and_eq_true] at hg
    have h2 := calm_annotate hD b (r ++ [1]) _ hg.1.2 (nodeAt_child h rfl)
    simp only [Expr.annotate, tailNl, Expr.calm, hd, h2.1]
    exact ⟨trivial, rfl⟩
theorem calms_annotate (hD : Calmed X D) : (es : Exprs) → (t : Token) → (r : Ref) → (z : View) → (i : Nat) →
    es.gram = true → X.nodeAt r = some z → (es.view t).At z i →
    (es.annotate (D.map Deco.placed) r i).calm = true
  | .nil, _, _, _, _, _, _, _ => rfl
  | .cons e es, t, r, z, i, hg, h, ha => by
    simp only [Exprs.gram, Bool.and_eq_true] at hg
    rw [Exprs.view] at ha
    simp only [Exprs.annotate, Exprs.calm, Bool.and_eq_true]
    exact ⟨(calm_annotate hD e _ _ hg.1 (nodeAt_child h ha.sub.1)).1,
      calms_annotate hD es t r z (i + 1) hg.2 h ha.sub.2⟩
theorem calmArgs_annotate (hD : Calmed X D) : (xs : Items) → (fst : Bool) → (t : Token) → (r : Ref) →
    (z : View) → (i : Nat) → xs.gramArgs fst = true → X.nodeAt r = some z → (xs.view true t).At z i →
    (xs.annotate (D.map Deco.placed) r i).calm = true
  | .nil, _, _, _, _, _, _, _, _ => rfl
  | .last x, _, t, r, z, i, hg, h, ha => by
    simp only [Items.gramArgs, Bool.and_eq_true] at hg
    rw [Items.view] at ha
    simp only [Items.annotate, Items.calm]
    exact calmArg_annotate hD x _ hg.1 (nodeAt_child h ha.sub.1)
  | .cons x s xs, _, t, r, z, i, hg, h, ha => by
    simp only [Items.gramArgs, Bool.and_eq_true] at hg
    rw [Items.view] at ha
    simp only [Items.annotate, Items.calm, Bool.and_eq_true]
    exact ⟨calmArg_annotate hD x _ hg.1.1 (nodeAt_child h ha.sub.1),
      calmArgs_annotate hD xs false t r z (i + 2) hg.2 h ha.sub.2.tok⟩
theorem calmArg_annotate (hD : Calmed X D) : (x : Arg) → (r : Ref) → x.gramArg = true →
    X.nodeAt r = some (x.view true) → (x.annotate (D.map Deco.placed) r).calm = true
  | .hole _, _, _, _ => rfl
  | .val _ e, r, hg, h => by
    simp only [Arg.annotate, Arg.calm]
    exact (calm_annotate hD e _ _ hg (nodeAt_child h rfl)).1
  | .name _ _ n q, r, hg, h => by
    simp only [Arg.gramArg, Bool.and_eq_true] at hg
    have hc : X.nodeAt (r ++ [0]) = some (.node .rArgumentNameClause (.sub n.view (.one q))) :=
      nodeAt_child h rfl
    have h1 := (calm_annotate hD n (r ++ [0] ++ [0]) _ (calm_argName true hg.1)
      (nodeAt_child (i := 0) (y := n.view) hc rfl)).1
    rw [List.append_assoc] at h1
    exact h1
  | .named _ _ n q e, r, hg, h => by
    simp only [Arg.gramArg, Bool.and_eq_true] at hg
    have hc : X.nodeAt (r ++ [0]) = some (.node .rArgumentNameClause (.sub n.view (.one q))) :=
      nodeAt_child h rfl
    have h1 := (calm_annotate hD n (r ++ [0] ++ [0]) _ (calm_argName true hg.1.1)
      (nodeAt_child (i := 0) (y := n.view) hc rfl)).1
    rw [List.append_assoc] at h1
    simp only [Arg.annotate, Arg.calm, Bool.and_eq_true]
    exact ⟨h1, (calm_annotate hD e _ _ hg.2 (nodeAt_child h rfl)).1⟩
  | .pdef .., r, hg, h => by cases hg
theorem calmPars_annotate (hD : Calmed X D) : (xs : Items) → (t : Token) → (r : Ref) →
    (z : View) → (i : Nat) → xs.gramPars = true → X.nodeAt r = some z → (xs.view false t).At z i →
    (xs.annotate (D.map Deco.placed) r i).calm = true
  | .nil, _, _, _, _, _, _, _ => rfl
  | .last x, t, r, z, i, hg, h, ha => by
    rw [Items.view] at ha
    simp only [Items.annotate, Items.calm]
    exact calmPar_annotate hD x _ hg (nodeAt_child h ha.sub.1)
  | .cons x s xs, t, r, z, i, hg, h, ha => by
    simp only [Items.gramPars, Bool.and_eq_true] at hg
    rw [Items.view] at ha
    simp only [Items.annotate, Items.calm, Bool.and_eq_true]
    refine ⟨calmPar_annotate hD x _ hg.1.1 (nodeAt_child h ha.sub.1),
      calmPars_annotate hD xs t r z (i + 2) ?_ h ha.sub.2.tok⟩
    have hg := hg.2
    cases xs with
    | nil => cases hg
    | last => exact hg
    | cons => exact hg
theorem calmPar_annotate (hD : Calmed X D) : (x : Arg) → (r : Ref) → x.gramPar = true →
    X.nodeAt r = some (x.view false) → (x.annotate (D.map Deco.placed) r).calm = true
  | .hole _, _, hg, _ => by cases hg
  | .val _ e, r, hg, h => by
    simp only [Arg.annotate, Arg.calm]
    exact (calm_annotate hD e _ _ (calm_parName true hg) (nodeAt_child h rfl)).1
  | .name .., r, hg, h => by cases hg
  | .named .., r, hg, h => by cases hg
  | .pdef _ n _ q e, r, hg, h => by
    simp only [Arg.gramPar, Bool.and_eq_true] at hg
    have hc : X.nodeAt (r ++ [1]) = some (.node .rParameterDefault (.tok q (.sub e.view .nil))) :=
      nodeAt_child h rfl
    have h1 := (calm_annotate hD e (r ++ [1] ++ [1]) _ hg.2 (nodeAt_child (i := 1) (y := e.view) hc rfl)).1
    rw [List.append_assoc] at h1
    simp only [Arg.annotate, Arg.calm, Bool.and_eq_true]
    exact ⟨(calm_annotate hD n _ _ (calm_parName true hg.1.1) (nodeAt_child h rfl)).1, h1⟩
end

/-- Files of R's grammar without risky comments are calm. -/
theorem calm_attach (x : Root) (hg : x.es.gram = true)
    (hc : ∀ d ∈ x.view.decos [] true, d.risky x.view = false) : x.attach.es.calm = true :=
  calms_annotate (X := x.view) (fun d hd => ⟨view_sound (fun _ => rfl) d hd, hc d hd⟩) x.es x.eof []
    x.view 0 hg rfl Parts.At.self

end Verif.Format
