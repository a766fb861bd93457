import Verif.Lemmas.Placement

/-!
# Where comments go
-/

namespace Verif.Format
open Verif.Syntax

/-- Statements with a body. -/
def headKind (k : Kind) : Prop :=
  k = .rForStatement ∨ k = .rWhileStatement ∨ k = .rRepeatStatement ∨ k = .rFunctionDefinition ∨
  k = .rIfStatement ∨ k = .rElseClause

/-- The node `s` below the enclosing node is the body of a statement, and not a call. -/
def Deco.Inner (d : Deco) (s : Ref) : Prop :=
  ∃ z w, d.enclosing.nodeAt s = some z ∧
    (z.kind = .rBracedExpressions ∨ z.kind = .rIfStatement ∨ z.kind = .rElseClause) ∧
    d.enclosing.nodeAt s.dropLast = some w ∧ headKind w.kind

/-- What a placement looks like: the comment goes to the node `s` below its enclosing node. -/
structure Fate (d : Deco) (p : Placement) (s : Ref) : Prop where
  target : p.target = d.ref ++ s
  node : ∃ y, d.enclosing.nodeAt s = some y
  own : s = [] → (p.place = .leading ∧ headKind d.enclosing.kind) ∨
    (p.place = .dangling ∧ ∀ j, d.enclosing.parts.slot j = none)
  trailing : p.place = .trailing → ∃ i, s = [i] ∧ i < d.gap
  inner : ∀ s1 s2, s = s1 ++ s2 → s1 ≠ [] → s2 ≠ [] → d.Inner s1
  dangling : p.place = .dangling → s ≠ [] →
    d.Inner s ∧ ∃ y, d.enclosing.nodeAt s = some y ∧ ∀ j, y.parts.slot j = none
  first : ∀ s0 w y, s = s0 ++ [0] → p.place = .leading → d.enclosing.nodeAt s0 = some w →
    d.enclosing.nodeAt s = some y → w.kind = .rBinaryExpression → y.isHole = true
  clause : ∀ s0 w, s = s0 ++ [5] → s0 ≠ [] → d.enclosing.nodeAt s0 = some w → w.kind ≠ .rIfStatement

theorem slot_nodeAt {x y : View} {i : Nat} (h : x.parts.slot i = some y) : x.nodeAt [i] = some y := by
  simp only [View.nodeAt, h]

theorem single_append {i : Nat} {s1 s2 : Ref} (h : [i] = s1 ++ s2) (h1 : s1 ≠ []) : s2 = [] := by
  cases s1 with
  | nil => exact absurd rfl h1
  | cons a s1 => simp at h; exact h.2.2

theorem firstSub_slot : (ps : Parts) → (i j : Nat) → (y : View) → ps.firstSub i = some (j, y) →
    i ≤ j ∧ ps.slot (j - i) = some y
  | .nil, _, _, _, h => by cases h
  | .tok _ ps, i, j, y, h => by
    obtain ⟨h1, h2⟩ := firstSub_slot ps (i + 1) j y h
    refine ⟨by omega, ?_⟩
    rw [show j - i = (j - (i + 1)) + 1 by omega]
    exact h2
  | .sub x ps, i, j, y, h => by
    rw [Parts.firstSub] at h
    cases h
    exact ⟨Nat.le_refl _, by rw [Nat.sub_self]; rfl⟩

theorem firstSub_none : (ps : Parts) → (i : Nat) → ps.firstSub i = none → ∀ j, ps.slot j = none
  | .nil, _, _ => fun j => by simp [Parts.slot]
  | .tok _ ps, i, h => fun j => by
    cases j with
    | zero => rfl
    | succ j => exact firstSub_none ps (i + 1) h j
  | .sub x ps, i, h => by rw [Parts.firstSub] at h; cases h

/-- A child of the enclosing node. -/
theorem fate_child {d : Deco} {w : Where} {i : Nat} {y : View}
    (hi : d.enclosing.parts.slot i = some y) (hw : w = .leading ∨ (w = .trailing ∧ i < d.gap))
    (h0 : w = .leading → i = 0 → d.enclosing.kind = .rBinaryExpression → y.isHole = true) :
    Fate d ⟨w, d.ref ++ [i]⟩ [i] where
  target := rfl
  node := ⟨y, slot_nodeAt hi⟩
  own := fun h => by cases h
  trailing := fun h => by
    rcases hw with rfl | ⟨-, hg⟩
    · cases h
    · exact ⟨i, rfl, hg⟩
  inner := fun s1 s2 h h1 h2 => absurd (single_append h h1) h2
  dangling := fun h => by
    rcases hw with rfl | ⟨rfl, -⟩ <;> cases h
  first := fun s0 z y' h hl hz hy hk => by
    have h' : [] ++ [i] = s0 ++ [0] := h
    obtain ⟨h1, h2⟩ := List.append_inj' h' rfl
    subst h1
    cases hz
    rw [slot_nodeAt hi] at hy
    cases hy
    exact h0 hl (by simpa using h2) hk
  clause := fun s0 _ h h1 _ => by
    have h' : [] ++ [i] = s0 ++ [5] := h
    exact absurd (List.append_inj' h' rfl).1.symm h1

/-- The enclosing node. -/
theorem fate_self {d : Deco} (h : headKind d.enclosing.kind) : Fate d ⟨.leading, d.ref⟩ [] where
  target := (List.append_nil _).symm
  node := ⟨_, rfl⟩
  own := fun _ => .inl ⟨rfl, h⟩
  trailing := fun h => by cases h
  inner := fun s1 s2 h h1 _ => by
    cases s1 with
    | nil => exact absurd rfl h1
    | cons => cases h
  dangling := fun h => by cases h
  first := fun s0 z y h => by cases s0 <;> cases h
  clause := fun s0 _ h => by cases s0 <;> cases h

/-- A body. -/
theorem fate_body {d : Deco} {p : Ref} {body w : View} (n : Nat) (hb : d.enclosing.nodeAt (p ++ [n]) = some body)
    (hw : d.enclosing.nodeAt p = some w) (hh : headKind w.kind) (hn : n ≠ 0 ∧ n ≠ 5)
    (hi : ∀ s1 s2, p = s1 ++ s2 → s1 ≠ [] → d.Inner s1) :
    ∃ s, Fate d (placeBody (d.ref ++ (p ++ [n])) body) s := by
  have hpre : ∀ s1 s2, p ++ [n] = s1 ++ s2 → s1 ≠ [] → s2 ≠ [] → d.Inner s1 := by
    intro s1 s2 h h1 h2
    refine hi s1 s2.dropLast ?_ h1
    have := congrArg List.dropLast h
    rw [List.dropLast_concat, List.dropLast_append_of_ne_nil h2] at this
    exact this
  have hleaf : Fate d ⟨.leading, d.ref ++ (p ++ [n])⟩ (p ++ [n]) :=
    { target := rfl
      node := ⟨_, hb⟩
      own := fun h => by simp at h
      trailing := fun h => by cases h
      inner := hpre
      dangling := fun h => by cases h
      first := fun s0 z y h _ _ _ _ => by
        have := (List.append_inj' h rfl).2
        simp at this
        exact absurd this hn.1
      clause := fun s0 z h _ _ => by
        have := (List.append_inj' h rfl).2
        simp at this
        exact absurd this hn.2 }
  unfold placeBody
  split
  · rename_i hk
    have hin : d.Inner (p ++ [n]) := ⟨body, w, hb, .inl hk, by rw [List.dropLast_concat]; exact hw, hh⟩
    split
    · rename_i i y hf
      obtain ⟨-, hs⟩ := firstSub_slot _ _ _ _ hf
      have hat : d.enclosing.nodeAt (p ++ [n] ++ [i]) = some y := by
        rw [nodeAt_append, hb]
        exact slot_nodeAt hs
      refine ⟨p ++ [n] ++ [i], ?_, ⟨_, hat⟩, (fun h => by simp at h), (fun h => by cases h), ?_,
        (fun h => by cases h), ?_, ?_⟩
      · simp
      · intro s1 s2 h h1 h2
        have hd := congrArg List.dropLast h
        rw [List.dropLast_concat, List.dropLast_append_of_ne_nil h2] at hd
        by_cases h3 : s2.dropLast = []
        · rw [h3, List.append_nil] at hd
          rw [← hd]
          exact hin
        · exact hpre s1 _ hd h1 h3
      · intro s0 z y' h _ hz _ hk'
        have h1 := (List.append_inj' h rfl).1
        rw [← h1, hb] at hz
        cases hz
        rw [hk] at hk'
        cases hk'
      · intro s0 z h _ hz
        have h1 := (List.append_inj' h rfl).1
        rw [← h1, hb] at hz
        cases hz
        rw [hk]
        decide
    · rename_i hf
      exact ⟨p ++ [n], rfl, ⟨_, hb⟩, (fun h => by simp at h), (fun h => by cases h), hpre,
        (fun _ _ => ⟨hin, body, hb, firstSub_none _ _ hf⟩), (fun _ _ _ _ h => by cases h), hleaf.clause⟩
  · exact ⟨_, hleaf⟩

theorem fate_alternative {d : Deco} {p : Ref} {alt w : View} (n : Nat) {pl : Placement}
    (h : placeAlternative (d.ref ++ (p ++ [n])) alt = some pl)
    (hb : d.enclosing.nodeAt (p ++ [n]) = some alt)
    (hw : d.enclosing.nodeAt p = some w) (hh : headKind w.kind) (hn : n ≠ 0 ∧ n ≠ 5)
    (hi : ∀ s1 s2, p = s1 ++ s2 → s1 ≠ [] → d.Inner s1) : ∃ s, Fate d pl s := by
  unfold placeAlternative at h
  split at h
  · rename_i hk
    split at h
    · rename_i c hc
      cases h
      have hin : d.Inner (p ++ [n]) :=
        ⟨alt, w, hb, .inr (.inl hk), by rw [List.dropLast_concat]; exact hw, hh⟩
      have := fate_body (d := d) (p := p ++ [n]) (body := c) (w := alt) 4
        (by rw [nodeAt_append, hb]; exact slot_nodeAt hc) hb
        (.inr (.inr (.inr (.inr (.inl hk))))) (by omega) (by
          intro s1 s2 h h1
          by_cases h2 : s2 = []
          · subst h2
            rw [List.append_nil] at h
            rw [← h]
            exact hin
          · refine hi s1 s2.dropLast ?_ h1
            have := congrArg List.dropLast h
            rw [List.dropLast_concat, List.dropLast_append_of_ne_nil h2] at this
            exact this)
      simpa using this
    · cases h
  · cases h
    exact fate_body n hb hw hh hn hi

theorem nil_prefix_inner {d : Deco} : ∀ s1 s2, ([] : Ref) = s1 ++ s2 → s1 ≠ [] → d.Inner s1 := by
  intro s1 s2 h h1
  cases s1 with
  | nil => exact absurd rfl h1
  | cons => cases h

variable {d : Deco} {p : Placement}

theorem at_following {n : Nat} (ok : d.Ok) (h : at? d.following = some n) :
    d.gap ≤ n ∧ ∃ y, d.enclosing.parts.slot n = some y := by
  unfold at? at h
  rw [ok.following] at h
  cases hf : d.enclosing.parts.subFrom d.gap 0 with
  | none => rw [hf] at h; cases h
  | some z =>
    obtain ⟨j, y⟩ := z
    rw [hf] at h
    cases h
    obtain ⟨-, h1, h2⟩ := subFrom_spec _ _ _ _ _ hf
    exact ⟨h1, y, by simpa using h2⟩

theorem at_preceding {n : Nat} (ok : d.Ok) (h : at? d.preceding = some n) :
    n < d.gap ∧ ∃ y, d.enclosing.parts.slot n = some y := by
  unfold at? at h
  rw [ok.preceding] at h
  cases hf : d.enclosing.parts.prevSub d.gap 0 with
  | none => rw [hf] at h; cases h
  | some z =>
    obtain ⟨j, y⟩ := z
    rw [hf] at h
    cases h
    obtain ⟨-, h1, h2⟩ := prevSub_spec _ _ _ _ _ hf
    exact ⟨h1, y, by simpa using h2⟩

theorem fate_loop {k : Kind} {n : Nat} (hk : headKind k) (hn : n ≠ 0 ∧ n ≠ 5)
    (h : handleLoop k n d = some p) : ∃ s, Fate d p s := by
  unfold handleLoop at h
  split at h
  · rename_i he
    split at h
    · rename_i body hb
      split at h
      · cases h
        exact fate_body (p := []) n (slot_nodeAt hb) rfl (he ▸ hk) hn nil_prefix_inner
      · cases h
        exact ⟨_, fate_self (he ▸ hk)⟩
    · cases h
      exact ⟨_, fate_self (he ▸ hk)⟩
  · cases h

theorem fate_function (h : handleFunction d = some p) : ∃ s, Fate d p s := by
  unfold handleFunction at h
  split at h
  · rename_i he
    have hk : headKind d.enclosing.kind := .inr (.inr (.inr (.inl he)))
    split at h
    · cases h
      exact ⟨_, fate_self hk⟩
    · split at h
      · rename_i body hb
        split at h
        · cases h
          exact fate_body (p := []) 2 (slot_nodeAt hb) rfl hk (by omega) nil_prefix_inner
        · cases h
      · cases h
  · cases h

theorem fate_repeat (h : handleRepeat d = some p) : ∃ s, Fate d p s := by
  unfold handleRepeat at h
  split at h
  · rename_i he
    have hk : headKind d.enclosing.kind := .inr (.inr (.inl he))
    split at h
    · rename_i body hb
      cases h
      exact fate_body (p := []) 1 (slot_nodeAt hb) rfl hk (by omega) nil_prefix_inner
    · cases h
      exact ⟨_, fate_self hk⟩
  · cases h

theorem fate_if (ok : d.Ok) (h : handleIf d = some p) : ∃ s, Fate d p s := by
  unfold handleIf at h
  split at h
  · rename_i he
    have hk : headKind d.enclosing.kind := .inr (.inr (.inr (.inr (.inl he))))
    split at h
    · rename_i cond cons hc hb
      have hbody := fate_body (d := d) (p := []) 4 (slot_nodeAt hb) rfl hk (by omega) nil_prefix_inner
      split at h
      · rename_i hp
        cases h
        obtain ⟨h1, y, h2⟩ := at_preceding ok hp.1
        exact ⟨_, fate_child h2 (.inr ⟨rfl, h1⟩) fun h => by cases h⟩
      · split at h
        · cases h
          exact hbody
        · split at h
          · rename_i clause hcl
            split at h
            · rename_i alt ha
              split at h
              · rename_i hf
                split at h
                · cases h
                  exact hbody
                · have hcat := slot_nodeAt hcl
                  refine fate_alternative (d := d) (p := [5]) (w := clause) 1 h ?_ hcat
                    (.inr (.inr (.inr (.inr (.inr hf.1))))) (by omega) ?_
                  · rw [nodeAt_append, hcat]
                    exact slot_nodeAt ha
                  · intro s1 s2 hs h1
                    have := single_append hs h1
                    subst this
                    rw [List.append_nil] at hs
                    rw [← hs]
                    exact ⟨clause, d.enclosing, hcat, .inr (.inr hf.1), rfl, hk⟩
              · cases h
            · cases h
          · cases h
    · cases h
  · cases h

theorem fate_else (h : handleElse d = some p) : ∃ s, Fate d p s := by
  unfold handleElse at h
  split at h
  · rename_i he
    split at h
    · rename_i alt ha
      split at h
      · exact fate_alternative (d := d) (p := []) 1 h (slot_nodeAt ha) rfl
          (.inr (.inr (.inr (.inr (.inr he))))) (by omega) nil_prefix_inner
      · cases h
    · cases h
  · cases h

theorem fate_paren (ok : d.Ok) (h : handleParen d = some p) : ∃ s, Fate d p s := by
  unfold handleParen at h
  split at h
  · split at h
    · rename_i hf
      cases h
      obtain ⟨-, y, h2⟩ := at_following ok hf
      exact ⟨_, fate_child h2 (.inl rfl) fun _ h => by cases h⟩
    · split at h
      · rename_i hp
        cases h
        obtain ⟨h1, y, h2⟩ := at_preceding ok hp
        exact ⟨_, fate_child h2 (.inr ⟨rfl, h1⟩) fun h => by cases h⟩
      · cases h
  · cases h

theorem fate_nameClause (ok : d.Ok) (h : handleNameClause d = some p) : ∃ s, Fate d p s := by
  unfold handleNameClause at h
  split at h
  · rename_i hc
    cases h
    obtain ⟨-, y, h2⟩ := at_preceding ok hc.2
    exact ⟨_, fate_child h2 (.inl rfl) fun _ _ h => by rw [hc.1] at h; cases h⟩
  · cases h

theorem fate_argument (ok : d.Ok) (h : handleArgument d = some p) : ∃ s, Fate d p s := by
  unfold handleArgument at h
  split at h
  · rename_i hc
    cases h
    obtain ⟨-, y, h2⟩ := at_preceding ok hc.2.1
    exact ⟨_, fate_child h2 (.inl rfl) fun _ _ h => by rw [hc.1] at h; cases h⟩
  · cases h

/-- Comments at the very beginning of a node belong to an outer node. -/
theorem not_binary_start {P : Prop} (ok : d.Ok) {j : Nat} (hj : d.gap ≤ j) (h0 : j = 0)
    (h : d.enclosing.kind = .rBinaryExpression) : P := by
  have := ok.gap_pos (by omega)
  rw [h] at this
  cases this

theorem hole_kind {x : View} (h : x.isHole = true) : x.kind = .rArgument ∧ x.parts = .nil := by
  unfold View.isHole at h
  simp only [Bool.and_eq_true, beq_iff_eq] at h
  refine ⟨h.1, ?_⟩
  cases hp : x.parts <;> simp_all

theorem fate_hole (ok : d.Ok) (h : handleHole d = some p) : ∃ s, Fate d p s := by
  unfold handleHole at h
  split at h
  · rename_i i hole hp
    have hp' : at? d.preceding = some i := by rw [hp]; rfl
    obtain ⟨h1, y, h2⟩ := at_preceding ok hp'
    have hy : d.enclosing.parts.slot i = some hole := by
      rw [ok.preceding] at hp
      simpa using (prevSub_spec _ _ _ _ _ hp).2.2
    split at h
    · rename_i hh
      have hlead : ∃ s, Fate d ⟨.leading, d.ref ++ [i]⟩ s :=
        ⟨_, fate_child hy (.inl rfl) fun _ _ _ => hh⟩
      split at h
      · split at h
        · rename_i j z hj
          obtain ⟨-, h3, h4⟩ := prevSub_spec _ _ _ _ _ hj
          split at h
          · cases h
            exact ⟨_, fate_child (by simpa using h4) (.inr ⟨rfl, by omega⟩) fun h => by cases h⟩
          · cases h
            exact hlead
        · cases h
          exact hlead
      · split at h
        · rename_i j z hj
          split at h
          · cases h
            obtain ⟨h4, y, h5⟩ := at_following (n := j) ok (by rw [hj]; rfl)
            exact ⟨_, fate_child h5 (.inl rfl) fun _ => not_binary_start ok h4⟩
          · cases h
            exact hlead
        · cases h
          exact hlead
    · cases h
  · cases h

theorem fate_default (ok : d.Ok) : ∃ s, Fate d (placeDefault d) s := by
  have hf : ∀ j y, d.following = some (j, y) → ∃ s, Fate d ⟨.leading, d.ref ++ [j]⟩ s := by
    intro j y h
    obtain ⟨h1, y, h2⟩ := at_following (n := j) ok (by rw [h]; rfl)
    exact ⟨_, fate_child h2 (.inl rfl) fun _ => not_binary_start ok h1⟩
  have hp : ∀ i y, d.preceding = some (i, y) → ∃ s, Fate d ⟨.trailing, d.ref ++ [i]⟩ s := by
    intro i y h
    obtain ⟨h1, y, h2⟩ := at_preceding (n := i) ok (by rw [h]; rfl)
    exact ⟨_, fate_child h2 (.inr ⟨rfl, h1⟩) fun h => by cases h⟩
  unfold placeDefault
  split
  · rename_i h; exact hf _ _ h
  · rename_i h _; exact hp _ _ h
  · rename_i h _ _; exact hp _ _ h
  · rename_i h _; exact hf _ _ h
  · rename_i h1 h2
    rw [ok.preceding] at h1
    rw [ok.following] at h2
    refine ⟨[], (List.append_nil _).symm, ⟨_, rfl⟩, (fun _ => .inr ⟨rfl, noSubs _ _ _ h1 h2⟩),
      (fun h => by cases h), ?_, (fun _ h => absurd rfl h), (fun _ _ _ _ h => by cases h),
      (fun s0 _ h => by cases s0 <;> cases h)⟩
    intro s1 s2 h h1 _
    cases s1 with
    | nil => exact absurd rfl h1
    | cons => cases h

theorem orElse_some {f : Deco → Option Placement} {x : Option Placement}
    (h : orElse d f x = some p) : f d = some p ∨ x = some p := by
  cases x with
  | none => exact .inl h
  | some q => exact .inr h

/-- Every comment goes somewhere below its enclosing node. -/
theorem fate (ok : d.Ok) : ∃ s, Fate d (placeComment d) s := by
  unfold placeComment
  split
  · exact fate_default ok
  · generalize hx : (orElse d handleHole _ : Option Placement) = x
    cases x with
    | none => exact fate_default ok
    | some p =>
      rw [Option.getD_some]
      rcases orElse_some hx with h | hx
      · exact fate_hole ok h
      rcases orElse_some hx with h | hx
      · exact fate_argument ok h
      rcases orElse_some hx with h | hx
      · exact fate_nameClause ok h
      rcases orElse_some hx with h | hx
      · exact fate_paren ok h
      rcases orElse_some hx with h | hx
      · exact fate_else h
      rcases orElse_some hx with h | hx
      · exact fate_if ok h
      rcases orElse_some hx with h | hx
      · exact fate_repeat h
      rcases orElse_some hx with h | hx
      · exact fate_loop (.inr (.inl rfl)) (by omega) h
      rcases orElse_some hx with h | hx
      · exact fate_function h
      · exact fate_loop (.inl rfl) (by omega) hx

end Verif.Format
