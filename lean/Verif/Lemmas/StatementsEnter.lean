import Verif.Lemmas.StatementsBlock

/-!
# The comments that enter a block from outside
-/

namespace Verif.Format
open Verif.Syntax

variable {o : Opts} {X : View} {D : List Deco}

/-! ## Ways of comments -/

/-- The position of the body. -/
def bodyPos : Kind → Option Nat
  | .rForStatement => some 6
  | .rWhileStatement => some 4
  | .rRepeatStatement => some 1
  | .rFunctionDefinition => some 2
  | .rIfStatement => some 4
  | .rElseClause => some 1
  | _ => none

/-- The ways of comments into the part `y` after `else`. -/
def AltPath (y : View) (s : Ref) : Prop :=
  (y.kind ≠ .rIfStatement ∧ (s = [] ∨ ∃ i, s = [i])) ∨ (y.kind = .rIfStatement ∧ (s = [4] ∨ ∃ i, s = [4, i]))

/-- The ways of comments from their enclosing node. -/
inductive Route (x : View) : Ref → Prop
  | here : Route x []
  | child (i : Nat) : Route x [i]
  | body {n : Nat} (i : Nat) (h : bodyPos x.kind = some n) : Route x [n, i]
  | alt {c y : View} {s : Ref} (hk : x.kind = .rIfStatement) (hc : x.nodeAt [5] = some c) (hck : c.kind = .rElseClause)
      (hy : x.nodeAt [5, 1] = some y) (hs : AltPath y s) : Route x (5 :: 1 :: s)
  | els {y : View} {s : Ref} (hk : x.kind = .rElseClause) (hy : x.nodeAt [1] = some y) (hs : AltPath y s) :
      Route x (1 :: s)

theorem route_body (x b : View) (r : Ref) (n : Nat) (h : bodyPos x.kind = some n) :
    ∃ s, (placeBody (r ++ [n]) b).target = r ++ s ∧ Route x s := by
  unfold placeBody
  split
  · split
    · rename_i i v _
      exact ⟨[n, i], by simp, .body i h⟩
    · exact ⟨[n], rfl, .child n⟩
  · exact ⟨[n], rfl, .child n⟩

theorem altPath {r : Ref} {alt : View} {p : Placement} (h : placeAlternative r alt = some p) :
    ∃ s, p.target = r ++ s ∧ AltPath alt s := by
  have body : ∀ (r : Ref) b, (placeBody r b).target = r ∨ ∃ i, (placeBody r b).target = r ++ [i] := by
    intro r b
    unfold placeBody
    split
    · split
      · exact .inr ⟨_, rfl⟩
      · exact .inl rfl
    · exact .inl rfl
  unfold placeAlternative at h
  split at h
  · rename_i hk
    split at h
    · rename_i c hc
      cases h
      rcases body (r ++ [4]) c with h | ⟨i, h⟩
      · exact ⟨[4], h, .inr ⟨hk, .inl rfl⟩⟩
      · exact ⟨[4, i], by rw [h]; simp, .inr ⟨hk, .inr ⟨i, rfl⟩⟩⟩
    · cases h
  · rename_i hk
    cases h
    rcases body r alt with h | ⟨i, h⟩
    · exact ⟨[], by rw [h]; simp, .inl ⟨hk, .inl rfl⟩⟩
    · exact ⟨[i], h, .inl ⟨hk, .inr ⟨i, rfl⟩⟩⟩

theorem route (d : Deco) : ∃ s, (placeComment d).target = d.ref ++ s ∧ Route d.enclosing s := by
  have child : ∀ w i, ∃ s, (Placement.mk w (d.ref ++ [i])).target = d.ref ++ s ∧ Route d.enclosing s :=
    fun w i => ⟨[i], rfl, .child i⟩
  have self : ∀ w, ∃ s, (Placement.mk w d.ref).target = d.ref ++ s ∧ Route d.enclosing s :=
    fun w => ⟨[], (List.append_nil _).symm, .here⟩
  have body : ∀ n b, bodyPos d.enclosing.kind = some n →
      ∃ s, (placeBody (d.ref ++ [n]) b).target = d.ref ++ s ∧ Route d.enclosing s :=
    fun n b hb => route_body _ _ _ _ hb
  have hdefault : ∃ s, (placeDefault d).target = d.ref ++ s ∧ Route d.enclosing s := by
    unfold placeDefault
    split <;> first | exact child _ _ | exact self _
  have hpar : ∀ p, handleParen d = some p → ∃ s, p.target = d.ref ++ s ∧ Route d.enclosing s := by
    intro p h
    unfold handleParen at h
    split at h
    · split at h
      · cases h; exact child _ _
      · split at h
        · cases h; exact child _ _
        · cases h
    · cases h
  have hname : ∀ p, handleNameClause d = some p → ∃ s, p.target = d.ref ++ s ∧ Route d.enclosing s := by
    intro p h
    unfold handleNameClause at h
    split at h
    · cases h; exact child _ _
    · cases h
  have harg : ∀ p, handleArgument d = some p → ∃ s, p.target = d.ref ++ s ∧ Route d.enclosing s := by
    intro p h
    unfold handleArgument at h
    split at h
    · cases h; exact child _ _
    · cases h
  have hhole : ∀ p, handleHole d = some p → ∃ s, p.target = d.ref ++ s ∧ Route d.enclosing s := by
    intro p h
    unfold handleHole at h
    repeat' split at h
    all_goals first | (cases h; exact child _ _) | cases h
  have hloop : ∀ k n p, bodyPos k = some n → handleLoop k n d = some p →
      ∃ s, p.target = d.ref ++ s ∧ Route d.enclosing s := by
    intro k n p hk h
    unfold handleLoop at h
    split at h
    · rename_i he
      split at h
      · split at h
        · cases h; exact body n _ (by rw [he]; exact hk)
        · cases h; exact self _
      · cases h; exact self _
    · cases h
  have hfun : ∀ p, handleFunction d = some p → ∃ s, p.target = d.ref ++ s ∧ Route d.enclosing s := by
    intro p h
    unfold handleFunction at h
    split at h
    · rename_i he
      split at h
      · cases h; exact self _
      · split at h
        · split at h
          · cases h; exact body 2 _ (by rw [he]; rfl)
          · cases h
        · cases h
    · cases h
  have hrep : ∀ p, handleRepeat d = some p → ∃ s, p.target = d.ref ++ s ∧ Route d.enclosing s := by
    intro p h
    unfold handleRepeat at h
    split at h
    · rename_i he
      split at h
      · cases h; exact body 1 _ (by rw [he]; rfl)
      · cases h; exact self _
    · cases h
  have helse : ∀ p, handleElse d = some p → ∃ s, p.target = d.ref ++ s ∧ Route d.enclosing s := by
    intro p h
    unfold handleElse at h
    split at h
    · rename_i he
      split at h
      · rename_i b hb
        split at h
        · obtain ⟨s, h1, h2⟩ := altPath h
          exact ⟨1 :: s, by rw [h1]; simp, .els he (slot_nodeAt hb) h2⟩
        · cases h
      · cases h
    · cases h
  have hif : ∀ p, handleIf d = some p → ∃ s, p.target = d.ref ++ s ∧ Route d.enclosing s := by
    intro p h
    unfold handleIf at h
    split at h
    · rename_i he
      have hb4 : bodyPos d.enclosing.kind = some 4 := by rw [he]; rfl
      split at h
      · split at h
        · cases h; exact child _ _
        · split at h
          · cases h; exact body 4 _ hb4
          · split at h
            · rename_i clause hcl
              split at h
              · rename_i alt halt
                split at h
                · rename_i hk
                  split at h
                  · cases h; exact body 4 _ hb4
                  · obtain ⟨s, h1, h2⟩ := altPath h
                    refine ⟨5 :: 1 :: s, by rw [h1]; simp, .alt he (slot_nodeAt hcl) hk.1 ?_ h2⟩
                    show d.enclosing.nodeAt ([5] ++ [1]) = _
                    rw [nodeAt_append, slot_nodeAt hcl]
                    exact slot_nodeAt halt
                · cases h
              · cases h
            · cases h
      · cases h
    · cases h
  unfold placeComment
  split
  · exact hdefault
  · have orc : ∀ (f : Deco → Option Placement) (q : Option Placement),
        (∀ p, f d = some p → ∃ s, p.target = d.ref ++ s ∧ Route d.enclosing s) →
        (∀ p, q = some p → ∃ s, p.target = d.ref ++ s ∧ Route d.enclosing s) →
        ∀ p, orElse d f q = some p → ∃ s, p.target = d.ref ++ s ∧ Route d.enclosing s := by
      intro f q hf hq p h
      cases q with
      | none => exact hf p h
      | some q => exact hq p h
    have := orc _ _ hhole <| orc _ _ harg <| orc _ _ hname <| orc _ _ hpar <| orc _ _ helse <| orc _ _ hif <|
      orc _ _ hrep <| orc _ _ (hloop .rWhileStatement 4 · rfl) <| orc _ _ hfun <| (hloop .rForStatement 6 · rfl)
    revert this
    generalize orElse d handleHole _ = q
    intro this
    cases q with
    | none => exact hdefault
    | some p => exact this p rfl

/-- The ends of the ways into a block: its first statement, or the one of the consequence. -/
def intoBlock (t : Ref) : Prop := t = [1] ∨ t = [4, 1]

/-- Where comments from outside of the node `r` can go. -/
theorem out_quiet {r : Ref} {z : View} (hz : X.nodeAt r = some z) {d : Deco} (hd : ∃ s, d.Sound X s)
    (hout : ¬ r <+: d.ref) {n : Nat} {t : Ref} (ht : intoBlock t) (h : (placeComment d).target = r ++ n :: t) :
    (z.kind = .rElseClause ∧ n = 1) ∨ (z.kind = .rIfStatement ∧ n = 4 ∧ t = [1]) := by
  obtain ⟨s, h1, h2⟩ := route d
  obtain ⟨s', hs⟩ := hd
  rw [h1] at h
  obtain ⟨p, rfl⟩ : d.ref <+: r := by
    rcases List.prefix_or_prefix_of_prefix (l₁ := r) (l₂ := d.ref) (l₃ := d.ref ++ s)
        (by rw [h]; exact List.prefix_append _ _) (List.prefix_append _ _) with h | h
    · exact absurd h hout
    · exact h
  have hp : p ≠ [] := by
    rintro rfl
    exact hout (by simp)
  rw [List.append_assoc] at h
  have h := List.append_cancel_left h
  rw [nodeAt_append, hs.at_] at hz
  have hz : d.enclosing.nodeAt p = some z := hz
  obtain ⟨a, p', rfl⟩ := List.exists_cons_of_ne_nil hp
  cases h2 with
  | here => cases h
  | child i => rcases ht with rfl | rfl <;> simp at h
  | body i hb => rcases ht with rfl | rfl <;> (have := congrArg List.length h; simp at this)
  | @alt c y s hk hc hck hy hs =>
    simp only [List.cons_append, List.cons.injEq] at h
    obtain ⟨rfl, h⟩ := h
    rcases hs with ⟨hy', rfl | ⟨i, rfl⟩⟩ | ⟨hy', rfl | ⟨i, rfl⟩⟩
    · rcases ht with rfl | rfl <;> (have := congrArg List.length h; simp at this)
    · cases p' with
      | nil =>
        simp at h
        rw [hc] at hz
        cases hz
        exact .inl ⟨hck, h.1.symm⟩
      | cons b p' => rcases ht with rfl | rfl <;> (have := congrArg List.length h; simp at this)
    · cases p' with
      | nil =>
        simp at h
        rw [hc] at hz
        cases hz
        exact .inl ⟨hck, h.1.symm⟩
      | cons b p' => rcases ht with rfl | rfl <;> (have := congrArg List.length h; simp at this)
    · cases p' with
      | nil =>
        simp at h
        rw [hc] at hz
        cases hz
        exact .inl ⟨hck, h.1.symm⟩
      | cons b p' =>
        simp at h
        obtain ⟨rfl, h⟩ := h
        cases p' with
        | nil =>
          simp at h
          rw [hy] at hz
          cases hz
          refine .inr ⟨hy', h.1.symm, ?_⟩
          rcases ht with rfl | rfl
          · rfl
          · simp at h
        | cons => rcases ht with rfl | rfl <;> (have := congrArg List.length h; simp at this)
  | @els y s hk hy hs =>
    simp only [List.cons_append, List.cons.injEq] at h
    obtain ⟨rfl, h⟩ := h
    rcases hs with ⟨hy', rfl | ⟨i, rfl⟩⟩ | ⟨hy', rfl | ⟨i, rfl⟩⟩
    · rcases ht with rfl | rfl <;> (have := congrArg List.length h; simp at this)
    · rcases ht with rfl | rfl <;> (have := congrArg List.length h; simp at this; try omega)
    · rcases ht with rfl | rfl <;> (have := congrArg List.length h; simp at this; try omega)
    · cases p' with
      | nil =>
        simp at h
        rw [hy] at hz
        cases hz
        refine .inr ⟨hy', h.1.symm, ?_⟩
        rcases ht with rfl | rfl
        · rfl
        · simp at h
      | cons => rcases ht with rfl | rfl <;> (have := congrArg List.length h; simp at this)

/-- Where comments directly in a node can go. -/
theorem in_quiet {d : Deco} {n : Nat} {t : Ref} (ht : intoBlock t) (h : (placeComment d).target = d.ref ++ n :: t)
    (h5 : d.enclosing.kind = .rIfStatement → n ≠ 5) : bodyPos d.enclosing.kind = some n ∧ (t = [1] ∨ d.enclosing.kind = .rElseClause) := by
  obtain ⟨s, h1, h2⟩ := route d
  rw [h1] at h
  have h := List.append_cancel_left h
  cases h2 with
  | here => cases h
  | child i => rcases ht with rfl | rfl <;> simp at h
  | body i hb =>
    simp only [List.cons.injEq] at h
    obtain ⟨rfl, h⟩ := h
    refine ⟨hb, .inl ?_⟩
    rcases ht with rfl | rfl
    · rfl
    · simp at h
  | alt hk hc hck hy hs =>
    simp only [List.cons.injEq] at h
    exact absurd h.1.symm (h5 hk)
  | els hk hy hs =>
    simp only [List.cons.injEq] at h
    obtain ⟨rfl, h⟩ := h
    exact ⟨by rw [hk]; rfl, .inr hk⟩

/-! ## Comments of a child -/

/-- The comments directly in the node `r` that lead the node `q`, before (`side`) or after the child `n`. -/
def directTexts (r q : Ref) (n : Nat) (side : Bool) (ds : List Deco) : List (List Byte) :=
  (ds.filter fun d => d.ref == r && placeComment d == ⟨.leading, q⟩ && decide (d.gap ≤ n) == side).map Deco.text

theorem ledTexts_append (q : Ref) (A B : List Deco) : ledTexts q (A ++ B) = ledTexts q A ++ ledTexts q B := by
  simp [ledTexts]

theorem Ref.le_child (n : Nat) (a r : Ref) (hr : ¬ r <+: a.dropLast) (ha : a ≠ []) :
    Ref.le a (r ++ [n]) = Ref.le a r := by
  induction a generalizing r with
  | nil => exact absurd rfl ha
  | cons b a ih =>
    cases r with
    | nil => exact absurd List.nil_prefix hr
    | cons c r =>
      simp only [List.cons_append, Ref.le]
      by_cases hbc : b = c
      · subst hbc
        simp only [Nat.lt_irrefl, decide_false, beq_self_eq_true, Bool.true_and, Bool.false_or]
        cases a with
        | nil => cases r <;> rfl
        | cons a' a =>
          refine ih r ?_ (by simp)
          intro hp
          apply hr
          rw [List.dropLast_cons_cons]
          simpa using hp
      · have : (b == c) = false := by simpa using hbc
        simp [this]

/-- The comments of a child: those of its parent, and those directly in the parent. -/
theorem Split.into {r : Ref} {z y : View} {D1 D2 : List Deco} {n : Nat} (h : Split D r z D1 D2)
    (hn : z.parts.slot n = some y) : ∃ D1' D2', Split D (r ++ [n]) y D1' D2' ∧ ∀ t,
      ledTexts (r ++ n :: t) D1' = ledTexts (r ++ n :: t) D1 ++ directTexts r (r ++ n :: t) n true (z.decos r false) ∧
      ledTexts (r ++ n :: t) D2' = directTexts r (r ++ n :: t) n false (z.decos r false) ++ ledTexts (r ++ n :: t) D2 := by
  cases z with
  | node k ps =>
  obtain ⟨A, B, h1, h2, h3⟩ := parts_split ps (.node k ps) r 0 none false none n y hn
  rw [Nat.zero_add] at h1 h2 h3
  have hdec : (View.node k ps).decos r false = A ++ y.decos (r ++ [n]) false ++ B := h1
  have pre : ∀ d ∈ D1 ++ D2, ¬ (r ++ [n]) <+: d.ref := by
    intro d hd hp
    have hr : r <+: d.ref := (List.prefix_append _ _).trans hp
    rcases List.mem_append.1 hd with hd | hd
    · exact (h.before d hd).1 hr
    · exact (h.after d hd).1 hr
  have hs' : Split D (r ++ [n]) y (D1 ++ A) (B ++ D2) := by
    refine ⟨by rw [h.eq, hdec]; simp only [List.append_assoc], ?_, ?_⟩
    · intro d hd
      rcases List.mem_append.1 hd with hd | hd
      · refine ⟨pre d (by simp [hd]), ?_⟩
        rw [Ref.le_child _ _ _ (by simpa using (h.before d hd).1) (by simp)]
        exact (h.before d hd).2
      · exact prefix_side (h2 d hd)
    · intro d hd
      rcases List.mem_append.1 hd with hd | hd
      · exact prefix_side (h3 d hd)
      · refine ⟨pre d (by simp [hd]), ?_⟩
        rw [Ref.le_child _ _ _ (by simpa using (h.after d hd).1) (by simp)]
        exact (h.after d hd).2
  refine ⟨_, _, hs', fun t => ?_⟩
  have side : ∀ (b : Bool) (C : List Deco), (∀ d ∈ C, d.Side b r n) →
      ∀ c, directTexts r (r ++ n :: t) n c C = if c = b then ledTexts (r ++ n :: t) C else [] := by
    intro b C hC c
    have key : ∀ d ∈ C, (d.ref == r && placeComment d == ⟨.leading, r ++ n :: t⟩ && decide (d.gap ≤ n) == c) =
        (placeComment d == ⟨.leading, r ++ n :: t⟩ && b == c) := by
      intro d hd
      rcases hC d hd with ⟨h1, h2⟩ | ⟨k, q, h1, h2, -⟩
      · rw [h1, h2]; simp
      · have : (placeComment d == ⟨.leading, r ++ n :: t⟩) = false := by
          rw [beq_eq_false_iff_ne]
          intro he
          obtain ⟨s, hs, -⟩ := lands d
          rw [he, h1, List.append_assoc] at hs
          have := List.append_cancel_left (show r ++ n :: t = r ++ (k :: q ++ s) from hs)
          simp at this
          exact h2 this.1.symm
        rw [this]
        simp
    unfold directTexts ledTexts
    rw [List.filter_congr key]
    cases b <;> cases c <;> simp
  have inner : ∀ c, directTexts r (r ++ n :: t) n c (y.decos (r ++ [n]) false) = [] := by
    intro c
    unfold directTexts
    rw [List.filter_eq_nil_iff.2]
    · rfl
    · intro d hd he
      simp only [Bool.and_eq_true, beq_iff_eq] at he
      obtain ⟨q, hq, -⟩ := view_ok y (r ++ [n]) false nofun d hd
      rw [he.1.1] at hq
      have := congrArg List.length hq
      simp at this
  have split3 : ∀ c, directTexts r (r ++ n :: t) n c ((View.node k ps).decos r false) =
      directTexts r (r ++ n :: t) n c A ++ directTexts r (r ++ n :: t) n c B := by
    intro c
    have := inner c
    unfold directTexts at this ⊢
    rw [hdec, List.filter_append, List.filter_append, List.map_append, List.map_append, this, List.append_nil]
  rw [ledTexts_append, ledTexts_append, split3, split3, side true A h2, side true A h2, side false B h3, side false B h3]
  simp

/-! ## What enters a block -/

/-- Braces with something in them. -/
def Opens (y : View) : Prop := y.kind = .rBracedExpressions ∧ ∃ v, y.parts.firstSub 0 = some (1, v)

theorem opens_braced {e : Expr} (h : Opens e.view) : e.isBraced = true := by
  obtain ⟨h1, v, h2⟩ := h
  cases e <;> simp only [Expr.view, View.kind, View.parts, Parts.firstSub, Parts.one, reduceCtorEq] at h1 h2
  case braced => rfl
  case sel k _ _ _ => cases k <;> cases h1
  case call k _ _ _ _ _ => cases k <;> cases h1

/-- The comments `pre` and `post` enter the expression at `r` from outside. -/
structure Ent (X : View) (D : List Deco) (r : Ref) (e : Expr) (pre post : List (List Byte)) : Prop where
  at_ : X.nodeAt r = some e.view
  ex : ∃ D1 D2, Split D r e.view D1 D2 ∧
    (Opens e.view → ledTexts (r ++ [1]) D1 = pre ∧ ledTexts (r ++ [1]) D2 = post) ∧
    (∀ y, e.view.kind = .rIfStatement → e.view.parts.slot 4 = some y → Opens y →
      ledTexts (r ++ [4, 1]) D1 = pre ∧ ledTexts (r ++ [4, 1]) D2 = [])

theorem Ent.node {r : Ref} {e : Expr} {pre post : List (List Byte)} (h : Ent X D r e pre post) : Node X D r e.view := by
  obtain ⟨D1, D2, h1, -⟩ := h.ex
  exact ⟨h.at_, D1, D2, h1⟩

theorem ledTexts_none {q : Ref} {C : List Deco} (h : ∀ d ∈ C, placeComment d ≠ ⟨.leading, q⟩) : ledTexts q C = [] := by
  rw [ledTexts, List.filter_eq_nil_iff.2]
  · rfl
  · intro d hd he
    exact h d hd (eq_of_beq he)

/-- Comments from outside of a child go into it only if it is a body. -/
theorem no_lead {r : Ref} {z : View} (hz : X.nodeAt r = some z) {n : Nat} {d : Deco} (hd : ∃ s, d.Sound X s)
    (hout : ¬ (r ++ [n]) <+: d.ref) {t : Ref} (ht : intoBlock t) (h5 : z.kind = .rIfStatement → n ≠ 5)
    (hb : bodyPos z.kind ≠ some n) : placeComment d ≠ ⟨.leading, r ++ n :: t⟩ := by
  intro h
  have h' : (placeComment d).target = r ++ n :: t := by rw [h]
  by_cases hr : r <+: d.ref
  · obtain ⟨q, hq⟩ := hr
    obtain ⟨s, hs, -⟩ := lands d
    cases q with
    | cons k q =>
      rw [h', ← hq, List.append_assoc] at hs
      have := List.append_cancel_left (show r ++ n :: t = r ++ (k :: q ++ s) from hs)
      simp at this
      apply hout
      rw [← hq, this.1]
      exact ⟨q, by simp⟩
    | nil =>
      rw [List.append_nil] at hq
      subst hq
      obtain ⟨s', hs'⟩ := hd
      rw [hs'.at_] at hz
      cases hz
      exact hb (in_quiet ht h' h5).1
  · rcases out_quiet hz hd hr ht h' with ⟨h1, rfl⟩ | ⟨h1, rfl, -⟩
    · exact hb (by rw [h1]; rfl)
    · exact hb (by rw [h1]; rfl)

theorem plain_ent (hD : ∀ d ∈ D, ∃ s, d.Sound X s) {r : Ref} {z : View} {n : Nat} {e : Expr} (hz : X.nodeAt r = some z)
    (hn : Node X D (r ++ [n]) e.view) (h5 : z.kind = .rIfStatement → n ≠ 5) (hb : bodyPos z.kind ≠ some n) :
    Ent X D (r ++ [n]) e [] [] := by
  obtain ⟨h1, D1, D2, hs⟩ := hn
  have key : ∀ t, intoBlock t → ∀ d ∈ D1 ++ D2, placeComment d ≠ ⟨.leading, r ++ [n] ++ t⟩ := by
    intro t ht d hd
    have hd' : d ∈ D := by
      rw [hs.eq]
      simp only [List.mem_append] at hd ⊢
      rcases hd with hd | hd
      · exact .inl (.inl hd)
      · exact .inr hd
    rw [show r ++ [n] ++ t = r ++ n :: t by simp]
    refine no_lead hz (hD d hd') ?_ ht h5 hb
    rcases List.mem_append.1 hd with hd | hd
    · exact (hs.before d hd).1
    · exact (hs.after d hd).1
  refine ⟨h1, D1, D2, hs, fun _ => ⟨?_, ?_⟩, fun _ _ _ _ => ⟨?_, ?_⟩⟩
  · exact ledTexts_none fun d hd => key [1] (.inl rfl) d (List.mem_append_left _ hd)
  · exact ledTexts_none fun d hd => key [1] (.inl rfl) d (List.mem_append_right _ hd)
  · exact ledTexts_none fun d hd => key [4, 1] (.inr rfl) d (List.mem_append_left _ hd)
  · exact ledTexts_none fun d hd => key [4, 1] (.inr rfl) d (List.mem_append_right _ hd)

/-- Comments from outside of the parent. -/
theorem led_out (hD : ∀ d ∈ D, ∃ s, d.Sound X s) {r : Ref} {z : View} {D1 D2 : List Deco} (hz : X.nodeAt r = some z)
    (hs : Split D r z D1 D2) {n : Nat} {t : Ref} (ht : intoBlock t) (h1 : ¬ (z.kind = .rElseClause ∧ n = 1))
    (h2 : ¬ (z.kind = .rIfStatement ∧ n = 4 ∧ t = [1])) :
    ledTexts (r ++ n :: t) D1 = [] ∧ ledTexts (r ++ n :: t) D2 = [] := by
  constructor
  · refine ledTexts_none fun d hd he => ?_
    have hd' : d ∈ D := by rw [hs.eq]; simp [hd]
    rcases out_quiet hz (hD d hd') (hs.before d hd).1 ht (by rw [he]) with h | h
    · exact h1 h
    · exact h2 h
  · refine ledTexts_none fun d hd he => ?_
    have hd' : d ∈ D := by rw [hs.eq]; simp [hd]
    rcases out_quiet hz (hD d hd') (hs.after d hd).1 ht (by rw [he]) with h | h
    · exact h1 h
    · exact h2 h

/-- A comment directly in a node. -/
theorem direct_mem {r q : Ref} {n : Nat} {c : Bool} {z : View} {C : List Deco} (hC : C = z.decos r false)
    (h : ∀ d ∈ C, d.ref = r → d.enclosing = z → placeComment d ≠ ⟨.leading, q⟩) : directTexts r q n c C = [] := by
  unfold directTexts
  rw [List.filter_eq_nil_iff.2]
  · rfl
  · intro d hd he
    simp only [Bool.and_eq_true, beq_iff_eq] at he
    obtain ⟨q', h1, h2, -⟩ := view_ok z r false nofun d (hC ▸ hd)
    rw [he.1.1] at h1
    have : q' = [] := by
      have := congrArg List.length h1
      simp at this
      exact this
    subst this
    cases h2
    exact h d hd he.1.1 rfl he.1.2

theorem body_ent (hD : ∀ d ∈ D, ∃ s, d.Sound X s) {r : Ref} {z : View} {n : Nat} {b : Expr} (hn : Node X D r z)
    (hb : z.parts.slot n = some b.view) (h1 : z.kind ≠ .rElseClause) (h2 : z.kind ≠ .rIfStatement)
    {cs : List (List Byte)}
    (hd : Opens b.view → directTexts r (r ++ [n, 1]) n true (z.decos r false) = cs ∧
      directTexts r (r ++ [n, 1]) n false (z.decos r false) = []) :
    Ent X D (r ++ [n]) b (bodyComments b cs) [] := by
  obtain ⟨hz, D1, D2, hs⟩ := hn
  obtain ⟨D1', D2', hs', hl⟩ := hs.into hb
  refine ⟨nodeAt_child hz hb, D1', D2', hs', ?_, ?_⟩
  · intro ho
    obtain ⟨l1, l2⟩ := led_out hD hz hs (n := n) (.inl rfl) (fun h => h1 h.1) (fun h => h2 h.1)
    obtain ⟨l3, l4⟩ := hl [1]
    obtain ⟨l5, l6⟩ := hd ho
    rw [show r ++ [n] ++ [1] = r ++ n :: [1] by simp, l3, l4, l1, l2, l5, l6, bodyComments, opens_braced ho]
    exact ⟨rfl, rfl⟩
  · intro y hk _ _
    obtain ⟨l1, l2⟩ := led_out hD hz hs (n := n) (.inr rfl) (fun h => h1 h.1) (fun h => h2 h.1)
    obtain ⟨l3, l4⟩ := hl [4, 1]
    have l5 : ∀ c, directTexts r (r ++ n :: [4, 1]) n c (z.decos r false) = [] := by
      intro c
      refine direct_mem rfl fun d _ hr he hp => ?_
      have := (in_quiet (d := d) (n := n) (t := [4, 1]) (.inr rfl) (by rw [hp, hr]) (by rw [he]; intro h; exact absurd h h2)).2
      rcases this with h | h
      · cases h
      · rw [he] at h; exact h1 h
    have hnb : b.isBraced = false := by
      cases b <;> simp only [Expr.view, View.kind, reduceCtorEq] at hk <;> rfl
    rw [show r ++ [n] ++ [4, 1] = r ++ n :: [4, 1] by simp, l3, l4, l1, l2, l5, l5, bodyComments, hnb]
    exact ⟨rfl, rfl⟩

/-! ## Comments in one gap -/

theorem direct_append (r q : Ref) (n : Nat) (c : Bool) (A B : List Deco) :
    directTexts r q n c (A ++ B) = directTexts r q n c A ++ directTexts r q n c B := by
  simp [directTexts]

theorem direct_sub (r q : Ref) (n k : Nat) (c : Bool) (y : View) :
    directTexts r q n c (y.decos (r ++ [k]) false) = [] := by
  unfold directTexts
  rw [List.filter_eq_nil_iff.2]
  · rfl
  · intro d hd he
    simp only [Bool.and_eq_true, beq_iff_eq] at he
    obtain ⟨q', hq, -⟩ := view_ok y (r ++ [k]) false nofun d hd
    rw [he.1.1] at hq
    have := congrArg List.length hq
    simp at this

theorem direct_other {x : View} {r q : Ref} {n g : Nat} {c : Bool} {p f : Option (Nat × View)} {prev : Option Token}
    {u : Token} (h : ∀ d ∈ gapDecos x r g p f prev u, placeComment d ≠ ⟨.leading, q⟩) :
    directTexts r q n c (gapDecos x r g p f prev u) = [] := by
  unfold directTexts
  rw [List.filter_eq_nil_iff.2]
  · rfl
  · intro d hd he
    simp only [Bool.and_eq_true, beq_iff_eq] at he
    exact h d hd he.1.2

/-- Positions of the comments in a gap. -/
theorem gap_position {x : View} {r : Ref} {g : Nat} {p f : Option (Nat × View)} {prev : Option Token} {u : Token}
    {d : Deco} (hd : d ∈ gapDecos x r g p f prev u) : d.followingToken = u.kind ∧
    (d.position = .sameLine ↔ (trailingOf prev ++ u.leading).any (fun p => p.kind == .newline) = false) := by
  obtain ⟨A, B, h1, h2, h3, h4, h5⟩ := scan_lines (trailingOf prev ++ u.leading) (trailingOf prev).length 0
  unfold gapDecos at hd
  simp only [h1] at hd
  obtain ⟨c, hc, rfl⟩ := List.mem_map.1 hd
  refine ⟨rfl, ?_⟩
  cases hn : (trailingOf prev ++ u.leading).any (fun p => p.kind == .newline) with
  | true => cases hco : c.own <;> simp
  | false =>
    have hB : B = [] := by
      have : (trailingOf prev ++ u.leading).dropWhile (fun p => p.kind != .newline) = [] := by
        have h6 : ∀ ps : List Piece, ps.any (fun p => p.kind == .newline) = false →
            ps.dropWhile (fun p => p.kind != .newline) = [] := by
          intro ps
          induction ps with
          | nil => intro _; rfl
          | cons p ps ih =>
            intro hp
            simp only [List.any_cons, Bool.or_eq_false_iff] at hp
            rw [List.dropWhile_cons, if_pos (by simpa using hp.1), ih hp.2]
        exact h6 _ hn
      rw [laterComments, this] at h5
      exact List.map_eq_nil_iff.1 (h5.trans rfl)
    rw [hB, List.append_nil] at hc
    simp [h2 c hc]

theorem direct_gap {x : View} {r q : Ref} {n g : Nat} {c : Bool} {p f : Option (Nat × View)} {prev : Option Token}
    {u : Token} (h : ∀ d ∈ gapDecos x r g p f prev u, (placeComment d = ⟨.leading, q⟩ ↔ d.position ≠ .sameLine)) :
    directTexts r q n c (gapDecos x r g p f prev u) =
      if decide (g ≤ n) = c then entering (trailingOf prev ++ u.leading) else [] := by
  have key : ∀ d ∈ gapDecos x r g p f prev u,
      (d.ref == r && placeComment d == ⟨.leading, q⟩ && decide (d.gap ≤ n) == c) =
      (((trailingOf prev ++ u.leading).any fun p => p.kind == .newline) && decide (decide (g ≤ n) = c)) := by
    intro d hd
    obtain ⟨h1, h2, h3, -⟩ := gapDecos_mem hd
    have h4 := (gap_position hd).2
    have h5 := h d hd
    rw [h1, h3, Bool.eq_iff_iff]
    simp only [Bool.and_eq_true, beq_iff_eq, decide_eq_true_eq, true_and]
    rw [h5, Ne, h4, Bool.not_eq_false]
  unfold directTexts entering
  rw [List.filter_congr key]
  cases hn : (trailingOf prev ++ u.leading).any (fun p => p.kind == .newline) with
  | true =>
    by_cases hc : decide (g ≤ n) = c
    · simp only [hc, decide_true, Bool.and_true, if_true]
      rw [List.filter_eq_self.2 (fun _ _ => rfl), gapDecos_texts]
    · simp [hc]
  | false => simp

theorem default_short (d : Deco) (w : Where) (a b : Nat) (s : Ref) : placeDefault d ≠ ⟨w, d.ref ++ a :: b :: s⟩ := by
  intro h
  have : (placeDefault d).target = d.ref ++ a :: b :: s := by rw [h]
  unfold placeDefault at this
  split at this <;> (have := congrArg List.length this; simp at this)

theorem opens_body {r : Ref} {b : View} (h : Opens b) : placeBody r b = ⟨.leading, r ++ [1]⟩ := by
  obtain ⟨h1, v, h2⟩ := h
  unfold placeBody
  rw [if_pos h1, h2]

end Verif.Format
