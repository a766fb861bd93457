import Verif.Lemmas.StatementsPrint

/-!
# Comments of the statements of blocks
-/

namespace Verif.Format
open Verif.Syntax

variable {o : Opts} {X : View} {D : List Deco}

/-! ## Comments that come from outside of a block -/

/-- A path from a node that leads into braces below it ends at the first expression in the braces. -/
def Reaches (x : View) (s : Ref) : Prop :=
  ∀ q j rest y, s = q ++ j :: rest → q ≠ [] → x.nodeAt q = some y → y.kind = .rBracedExpressions →
    rest = [] ∧ ∃ v, y.parts.firstSub 0 = some (j, v)

theorem reaches_nil (x : View) : Reaches x [] := by
  intro q j rest y h
  simp at h

theorem reaches_child (x : View) (i : Nat) : Reaches x [i] := by
  intro q j rest y h hq
  cases q with
  | nil => exact absurd rfl hq
  | cons a q => simp at h

theorem reaches_snoc {x : View} {p : Ref} {n : Nat}
    (h : ∀ q s, p = q ++ s → q ≠ [] → ∀ y, x.nodeAt q = some y → y.kind ≠ .rBracedExpressions) :
    Reaches x (p ++ [n]) := by
  intro q j rest y hs hq hy hk
  refine absurd hk (h q ((j :: rest).dropLast) ?_ hq y hy)
  have := congrArg List.dropLast hs
  rwa [List.dropLast_concat, List.dropLast_append_of_ne_nil (by simp)] at this

theorem reaches_body {x body : View} {r p : Ref} {n : Nat} (hb : x.nodeAt (p ++ [n]) = some body)
    (h : ∀ q s, p = q ++ s → q ≠ [] → ∀ y, x.nodeAt q = some y → y.kind ≠ .rBracedExpressions) :
    ∃ s, (placeBody (r ++ (p ++ [n])) body).target = r ++ s ∧ Reaches x s := by
  unfold placeBody
  split
  · rename_i hk
    split
    · rename_i i v hf
      refine ⟨p ++ [n] ++ [i], by simp, ?_⟩
      intro q j rest y hs hq hy hyk
      by_cases hr : rest = []
      · subst hr
        refine ⟨rfl, ?_⟩
        obtain ⟨h1, h2⟩ := List.append_inj' hs rfl
        cases h2
        rw [← h1, hb] at hy
        cases hy
        exact ⟨v, hf⟩
      · have h1 := congrArg List.dropLast hs
        rw [List.dropLast_concat, List.dropLast_append_of_ne_nil (by simp), List.dropLast_cons_of_ne_nil hr] at h1
        have h2 := congrArg List.dropLast h1
        rw [List.dropLast_concat, List.dropLast_append_of_ne_nil (by simp)] at h2
        exact absurd hyk (h q _ h2 hq y hy)
    · exact ⟨p ++ [n], rfl, reaches_snoc h⟩
  · exact ⟨p ++ [n], rfl, reaches_snoc h⟩

theorem reaches_alternative {x alt : View} {r p : Ref} {n : Nat} {pl : Placement}
    (hp : placeAlternative (r ++ (p ++ [n])) alt = some pl) (hb : x.nodeAt (p ++ [n]) = some alt)
    (h : ∀ q s, p = q ++ s → q ≠ [] → ∀ y, x.nodeAt q = some y → y.kind ≠ .rBracedExpressions) :
    ∃ s, pl.target = r ++ s ∧ Reaches x s := by
  unfold placeAlternative at hp
  split at hp
  · rename_i hk
    split at hp
    · rename_i c hc
      cases hp
      have hc' : x.nodeAt (p ++ [n] ++ [4]) = some c := by
        rw [nodeAt_append, hb]
        exact slot_nodeAt hc
      have := reaches_body (x := x) (r := r) (p := p ++ [n]) (n := 4) hc' (by
        intro q s hs hq y hy
        by_cases h2 : s = []
        · subst h2
          rw [List.append_nil] at hs
          rw [← hs, hb] at hy
          cases hy
          rw [hk]; decide
        · have := congrArg List.dropLast hs
          rw [List.dropLast_concat, List.dropLast_append_of_ne_nil h2] at this
          exact h q _ this hq y hy)
      rwa [← List.append_assoc] at this
    · cases hp
  · cases hp
    exact reaches_body hb h

theorem lands (d : Deco) : ∃ s, (placeComment d).target = d.ref ++ s ∧ Reaches d.enclosing s := by
  have none_above : ∀ (x : View) (q s : Ref), ([] : Ref) = q ++ s → q ≠ [] → ∀ y, x.nodeAt q = some y →
      y.kind ≠ .rBracedExpressions := by
    intro x q s h hq
    cases q with
    | nil => exact absurd rfl hq
    | cons => cases h
  have child : ∀ w i, ∃ s, (Placement.mk w (d.ref ++ [i])).target = d.ref ++ s ∧ Reaches d.enclosing s :=
    fun w i => ⟨[i], rfl, reaches_child _ i⟩
  have self : ∀ w, ∃ s, (Placement.mk w d.ref).target = d.ref ++ s ∧ Reaches d.enclosing s :=
    fun w => ⟨[], (List.append_nil _).symm, reaches_nil _⟩
  have body : ∀ n b, d.enclosing.parts.slot n = some b →
      ∃ s, (placeBody (d.ref ++ [n]) b).target = d.ref ++ s ∧ Reaches d.enclosing s := by
    intro n b hb
    exact reaches_body (p := []) (n := n) (slot_nodeAt hb) (none_above _)
  have hdefault : ∃ s, (placeDefault d).target = d.ref ++ s ∧ Reaches d.enclosing s := by
    unfold placeDefault
    split <;> first | exact child _ _ | exact self _
  have hpar : ∀ p, handleParen d = some p → ∃ s, p.target = d.ref ++ s ∧ Reaches d.enclosing s := by
    intro p h
    unfold handleParen at h
    split at h
    · split at h
      · cases h; exact child _ _
      · split at h
        · cases h; exact child _ _
        · cases h
    · cases h
  have hname : ∀ p, handleNameClause d = some p → ∃ s, p.target = d.ref ++ s ∧ Reaches d.enclosing s := by
    intro p h
    unfold handleNameClause at h
    split at h
    · cases h; exact child _ _
    · cases h
  have harg : ∀ p, handleArgument d = some p → ∃ s, p.target = d.ref ++ s ∧ Reaches d.enclosing s := by
    intro p h
    unfold handleArgument at h
    split at h
    · cases h; exact child _ _
    · cases h
  have hhole : ∀ p, handleHole d = some p → ∃ s, p.target = d.ref ++ s ∧ Reaches d.enclosing s := by
    intro p h
    unfold handleHole at h
    repeat' split at h
    all_goals first | (cases h; exact child _ _) | cases h
  have hloop : ∀ k n p, handleLoop k n d = some p → ∃ s, p.target = d.ref ++ s ∧ Reaches d.enclosing s := by
    intro k n p h
    unfold handleLoop at h
    split at h
    · split at h
      · rename_i b hb
        split at h
        · cases h; exact body n b hb
        · cases h; exact self _
      · cases h; exact self _
    · cases h
  have hfun : ∀ p, handleFunction d = some p → ∃ s, p.target = d.ref ++ s ∧ Reaches d.enclosing s := by
    intro p h
    unfold handleFunction at h
    split at h
    · split at h
      · cases h; exact self _
      · split at h
        · rename_i b hb
          split at h
          · cases h; exact body 2 b hb
          · cases h
        · cases h
    · cases h
  have hrep : ∀ p, handleRepeat d = some p → ∃ s, p.target = d.ref ++ s ∧ Reaches d.enclosing s := by
    intro p h
    unfold handleRepeat at h
    split at h
    · split at h
      · rename_i b hb
        cases h; exact body 1 b hb
      · cases h; exact self _
    · cases h
  have helse : ∀ p, handleElse d = some p → ∃ s, p.target = d.ref ++ s ∧ Reaches d.enclosing s := by
    intro p h
    unfold handleElse at h
    split at h
    · split at h
      · rename_i b hb
        split at h
        · exact reaches_alternative (p := []) (n := 1) h (slot_nodeAt hb) (none_above _)
        · cases h
      · cases h
    · cases h
  have hif : ∀ p, handleIf d = some p → ∃ s, p.target = d.ref ++ s ∧ Reaches d.enclosing s := by
    intro p h
    unfold handleIf at h
    split at h
    · split at h
      · rename_i hc ht
        split at h
        · cases h; exact child _ _
        · split at h
          · cases h; exact body 4 _ ht
          · split at h
            · rename_i clause hcl
              split at h
              · rename_i alt halt
                split at h
                · rename_i hk
                  split at h
                  · cases h; exact body 4 _ ht
                  · refine reaches_alternative (p := [5]) (n := 1) h ?_ ?_
                    · rw [nodeAt_append, slot_nodeAt hcl]
                      exact slot_nodeAt halt
                    · intro q s hs hq y hy
                      have hq' : q = [5] := by
                        cases q with
                        | nil => exact absurd rfl hq
                        | cons a q => simp at hs; rw [← hs.1, hs.2.1]
                      subst hq'
                      rw [slot_nodeAt hcl] at hy
                      cases hy
                      rw [hk.1]; decide
                · cases h
              · cases h
            · cases h
      · cases h
    · cases h
  unfold placeComment
  split
  · exact hdefault
  · have orc : ∀ (f : Deco → Option Placement) (q : Option Placement),
        (∀ p, f d = some p → ∃ s, p.target = d.ref ++ s ∧ Reaches d.enclosing s) →
        (∀ p, q = some p → ∃ s, p.target = d.ref ++ s ∧ Reaches d.enclosing s) →
        ∀ p, orElse d f q = some p → ∃ s, p.target = d.ref ++ s ∧ Reaches d.enclosing s := by
      intro f q hf hq p h
      cases q with
      | none => exact hf p h
      | some q => exact hq p h
    have := orc _ _ hhole <| orc _ _ harg <| orc _ _ hname <| orc _ _ hpar <| orc _ _ helse <| orc _ _ hif <|
      orc _ _ hrep <| orc _ _ (hloop .rWhileStatement 4) <| orc _ _ hfun <| hloop .rForStatement 6
    revert this
    generalize orElse d handleHole _ = q
    intro this
    cases q with
    | none => exact hdefault
    | some p => exact this p rfl

/-- Comments outside of braces that are attached to something in the braces lead the first expression. -/
theorem outside {q : Ref} {z v : View} {i : Nat} (hz : X.nodeAt q = some z) (hk : z.kind = .rBracedExpressions)
    (hf : z.parts.firstSub 0 = some (i, v)) {d : Deco} (hd : ∃ s, d.Sound X s) (hout : ¬ q <+: d.ref) {j : Nat}
    (hp : (q ++ [j]) <+: (placeComment d).target) : j = i ∧ placeComment d = ⟨.leading, q ++ [i]⟩ := by
  obtain ⟨s, hs⟩ := hd
  obtain ⟨s', h1, h2⟩ := lands d
  have ht := hs.fate.target
  have : s' = s := List.append_cancel_left (h1.symm.trans ht)
  subst this
  have hq : q <+: d.ref ++ s' := by
    rw [← h1]
    exact List.IsPrefix.trans (List.prefix_append _ _) hp
  obtain ⟨q', rfl⟩ : d.ref <+: q := by
    rcases List.prefix_or_prefix_of_prefix hq (List.prefix_append d.ref s') with h | h
    · exact absurd h hout
    · exact h
  have hq' : q' ≠ [] := by
    rintro rfl
    exact hout (by simp)
  rw [h1, List.append_assoc] at hp
  obtain ⟨rest, hr⟩ := hp
  rw [List.append_assoc] at hr
  have hr := List.append_cancel_left hr
  rw [nodeAt_append, hs.at_] at hz
  have hs' : s' = q' ++ j :: rest := by rw [← hr]; simp
  obtain ⟨rfl, w, hw⟩ := h2 q' j rest z hs' hq' hz hk
  rw [hf] at hw
  cases hw
  refine ⟨rfl, ?_⟩
  have hplace : (placeComment d).place = .leading := by
    cases hpl : (placeComment d).place with
    | leading => rfl
    | trailing =>
      obtain ⟨k, hk', -⟩ := hs.fate.trailing hpl
      rw [hs'] at hk'
      cases q' with
      | nil => exact absurd rfl hq'
      | cons a q' => simp at hk'
    | dangling =>
      obtain ⟨⟨y, w, -, -, h3, h4⟩, -⟩ := hs.fate.dangling hpl (by rw [hs']; simp)
      rw [hs', List.dropLast_concat] at h3
      have h3 : d.enclosing.nodeAt q' = some w := h3
      rw [show d.enclosing.nodeAt q' = some z from hz] at h3
      cases h3
      rw [hk] at h4
      exact absurd h4 braced_not_head
  have : placeComment d = ⟨(placeComment d).place, (placeComment d).target⟩ := rfl
  rw [this, hplace, h1, hs']
  simp

theorem Ref.le_extend : ∀ (a b c : Ref), Ref.le a b = true → Ref.le a (b ++ c) = true
  | [], _, _, _ => rfl
  | _ :: _, [], _, h => by cases h
  | a :: as, b :: bs, c, h => by
    simp only [List.cons_append, Ref.le, Bool.or_eq_true, Bool.and_eq_true] at h ⊢
    rcases h with h | ⟨h1, h2⟩
    · exact .inl h
    · exact .inr ⟨h1, Ref.le_extend as bs c h2⟩

/-- The comments of a block are attached to the statements they belong to; those from outside lead the first one. -/
theorem block_cared (hD : ∀ d ∈ D, ∃ s, d.Sound X s) {q : Ref} {a : Ann} {l r : Token} {es : Exprs} (hne : es ≠ .nil)
    (hz : X.nodeAt q = some (Expr.braced a l es r).view) {D1 D2 : List Deco}
    (hs : Split D q (Expr.braced a l es r).view D1 D2) :
    Cared (ledTexts (q ++ [1]) D1) (ledTexts (q ++ [1]) D2) (stations true l.trailing r es)
      (es.annotate (D.map Deco.placed) q 1) := by
  obtain ⟨v, hv⟩ : ∃ v, (Expr.braced a l es r).view.parts.firstSub 0 = some (1, v) := by
    cases es with
    | nil => exact absurd rfl hne
    | cons e es => exact ⟨e.view, rfl⟩
  obtain ⟨E, Ds, h1, h2, -, -, h5⟩ := stations_decos (Expr.braced a l es r).view q (.inr rfl) r es 1 none (some l) nofun
    (fun h => absurd h hne)
  rw [h2 rfl, List.nil_append] at h1
  have hdec : (Expr.braced a l es r).view.decos q false = Ds.flatten := by
    rw [← h1]
    simp only [Expr.view, View.decos, Parts.decos, Bool.false_eq_true, if_false, List.nil_append]
  have hmem : ∀ d ∈ D1 ++ D2, d ∈ D := by
    intro d hd
    rw [hs.eq]
    simp only [List.mem_append] at hd ⊢
    rcases hd with hd | hd
    · exact .inl (.inl hd)
    · exact .inr hd
  have hout : ∀ d ∈ D1 ++ D2, ¬ q <+: d.ref := by
    intro d hd
    rcases List.mem_append.1 hd with hd | hd
    · exact (hs.before d hd).1
    · exact (hs.after d hd).1
  have key : ∀ d ∈ D1 ++ D2, ∀ j, (q ++ [j]) <+: (placeComment d).target →
      j = 1 ∧ placeComment d = ⟨.leading, q ++ [1]⟩ :=
    fun d hd j hp => outside hz rfl hv (hD d (hmem d hd)) (hout d hd) hp
  refine stations_cared (D := D) (D1 := D2) es 1 true l.trailing Ds D1 (by rw [hs.eq, hdec]) ?_ ?_ ?_ h5
  · intro d hd hp
    refine ⟨(key d (List.mem_append_left _ hd) 1 hp).2, ?_⟩
    unfold Deco.precedes
    rw [Ref.le_extend _ _ _ (hs.before d hd).2]
    rfl
  · intro d hd hp
    exact (key d (List.mem_append_right _ hd) 1 hp).2
  · intro d hd j hj hp
    have := (key d hd j hp).1
    omega

/-! ## Parts of the file with their comments -/

theorem curlies_annotate (P : List Placed) (r : Ref) (i : Nat) (es : Exprs) : curlies (es.annotate P r i) = curlies es := by
  cases es with
  | nil => rfl
  | cons e es =>
    cases es with
    | cons f fs =>
      have key : ∀ e f fs, curlies (.cons e (.cons f fs)) = false := by
        intro e f fs
        unfold curlies
        split
        · rename_i h; cases h
        · rfl
      simp only [Exprs.annotate, key]
    | nil =>
      cases e with
      | braced a l es' t =>
        cases es' with
        | nil => rfl
        | cons e' es' =>
          cases es' with
          | cons => cases e' <;> simp only [Exprs.annotate, Expr.annotate, curlies]
          | nil =>
            cases e' with
            | atom a k t => cases k <;> rfl
            | _ => rfl
      | _ => rfl

end Verif.Format
