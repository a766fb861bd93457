import Verif.Lemmas.PlacementProper

/-!
# Comments of nodes that are kept as written
-/

namespace Verif.Format
open Verif.Syntax

variable {X : View} {D : List Deco}

/-- Comments do not go from outside of the node `r` to nodes below it. -/
def Closed (X : View) (r : Ref) (z : View) : Prop :=
  (z.kind ≠ .rBracedExpressions ∧ z.kind ≠ .rIfStatement ∧ z.kind ≠ .rElseClause) ∨
  ∀ w, X.nodeAt r.dropLast = some w → ¬ headKind w.kind

theorem Closed.not_inner {r : Ref} {z : View} (hc : Closed X r z) (hz : X.nodeAt r = some z) {d : Deco}
    {s s1 : Ref} (hs : d.Sound X s) (hr : r = d.ref ++ s1) (h1 : s1 ≠ []) : ¬ d.Inner s1 := by
  rintro ⟨z', w, hz', hk, hw, hh⟩
  have : z' = z := by
    have := hz
    rw [hr, nodeAt_suffix hs, hz'] at this
    exact Option.some.inj this
  subst this
  rcases hc with ⟨h2, h3, h4⟩ | h2
  · rcases hk with hk | hk | hk
    · exact h2 hk
    · exact h3 hk
    · exact h4 hk
  · refine h2 w ?_ hh
    rw [hr, List.dropLast_append_of_ne_nil h1, nodeAt_suffix hs]
    exact hw

/-- The comments attached to a node in some way. -/
def attachedTo (D : List Deco) (w : Where) (r : Ref) : List Deco :=
  D.filter fun d => placeComment d == ⟨w, r⟩

theorem annAt_eq (D : List Deco) (r : Ref) : annAt (D.map Deco.placed) r =
    ⟨(attachedTo D .leading r).map (fun d => d.placed.comment),
     (attachedTo D .dangling r).map (fun d => d.placed.comment),
     (attachedTo D .trailing r).map (fun d => d.placed.comment)⟩ := by
  have key : ∀ w, ((D.map Deco.placed).filter (fun p => p.to == ⟨w, r⟩)).map Placed.comment =
      (attachedTo D w r).map (fun d => d.placed.comment) := by
    intro w
    rw [List.filter_map, List.map_map]
    rfl
  simp only [annAt, key]

theorem attachedTo_nil {w : Where} {r : Ref} (h : ∀ d ∈ D, placeComment d ≠ ⟨w, r⟩) :
    attachedTo D w r = [] := by
  unfold attachedTo
  rw [List.filter_eq_nil_iff]
  intro d hd
  rw [beq_iff_eq]
  exact h d hd

theorem attachedTo_append (A B : List Deco) (w : Where) (r : Ref) :
    attachedTo (A ++ B) w r = attachedTo A w r ++ attachedTo B w r := by
  simp [attachedTo]

theorem mem_attachedTo {w : Where} {r : Ref} {d : Deco} :
    d ∈ attachedTo D w r ↔ d ∈ D ∧ placeComment d = ⟨w, r⟩ := by
  simp [attachedTo]

theorem le_child {r : Ref} {i j : Nat} (h : Ref.le (r ++ [i]) (r ++ [j]) = true) : i ≤ j := by
  rw [Ref.le_append] at h
  simp [Ref.le] at h
  omega

theorem le_below {r q : Ref} (h : r <+: q) (i : Nat) : Ref.le (q ++ [i]) r = false := by
  obtain ⟨t, rfl⟩ := h
  rw [List.append_assoc]
  conv => lhs; arg 2; rw [← List.append_nil r]
  rw [Ref.le_append]
  cases t <;> rfl

theorem takeWhile_all {α : Type} {p : α → Bool} {l : List α} (h : ∀ a ∈ l, p a = true) :
    l.takeWhile p = l := by
  induction l with
  | nil => rfl
  | cons a l ih =>
    rw [List.takeWhile_cons, if_pos (h a (by simp)), ih fun b hb => h b (by simp [hb])]

theorem takeWhile_none {α : Type} {p : α → Bool} {l : List α} (h : ∀ a ∈ l, p a = false) :
    l.takeWhile p = [] := by
  cases l with
  | nil => rfl
  | cons a l => rw [List.takeWhile_cons, if_neg (by rw [h a (by simp)]; simp)]

theorem dropWhile_none {α : Type} {p : α → Bool} {l : List α} (h : ∀ a ∈ l, p a = false) :
    l.dropWhile p = l := by
  cases l with
  | nil => rfl
  | cons a l => rw [List.dropWhile_cons, if_neg (by rw [h a (by simp)]; simp)]

theorem texts_placed (L : List Deco) :
    texts (L.map fun d => d.placed.comment) = L.map Deco.text := by
  rw [texts, List.map_map]
  rfl

/-- What is printed for a node that is kept contains each comment of the subtree once – if none that
stands after its beginning, but not in it, leads the node. -/
theorem verb_ok (hD : ∀ d ∈ D, ∃ s, d.Sound X s) {r : Ref} {z : View} {D1 D2 : List Deco}
    (hz : X.nodeAt r = some z) (sp : Split D r z D1 D2) (hc : Closed X r z)
    (hl : ∀ d ∈ D, placeComment d = ⟨.leading, r⟩ → d.precedes r = true ∨ r <+: d.ref) :
    VerbOk (annAt (D.map Deco.placed) r) z.tokens (commentsAt (D.map Deco.placed) (z.refs r)) := by
  have mem : ∀ d, d ∈ D ↔ d ∈ D1 ∨ d ∈ z.decos r false ∨ d ∈ D2 := by
    intro d
    rw [sp.eq]
    simp [or_assoc]
  -- comments from outside
  have outside : ∀ d ∈ D, ¬ r <+: d.ref → (placeComment d).target ∈ z.refs r →
      placeComment d = ⟨.leading, r⟩ ∨
      (placeComment d = ⟨.trailing, r⟩ ∧ ∃ i, r = d.ref ++ [i] ∧ i < d.gap) := by
    intro d hd hn ht
    obtain ⟨s, hs⟩ := hD d hd
    obtain ⟨q, hq, -⟩ := (mem_refs _ _ _).1 ht
    rw [hs.fate.target] at hq
    have h1 : ∃ s1, r = d.ref ++ s1 ∧ s1 ≠ [] ∧ s = s1 ++ q := by
      rcases List.append_eq_append_iff.1 hq with ⟨a, h1, h2⟩ | ⟨a, h1, h2⟩
      · refine ⟨a, h1, ?_, h2⟩
        intro h0
        subst h0
        rw [List.append_nil] at h1
        exact hn (h1 ▸ List.prefix_refl _)
      · exact absurd ⟨a, h1.symm⟩ hn
    obtain ⟨s1, hr, h1, h2⟩ := h1
    have hni := hc.not_inner hz hs hr h1
    by_cases h3 : q = []
    · subst h3
      rw [List.append_nil] at h2
      subst h2
      have htar : (placeComment d).target = r := by rw [hs.fate.target, hr]
      cases hp : (placeComment d).place with
      | leading =>
        left
        rw [← htar, ← hp]
      | dangling => exact absurd (hs.fate.dangling hp h1).1 hni
      | trailing =>
        right
        refine ⟨by rw [← htar, ← hp], ?_⟩
        obtain ⟨i, h4, h5⟩ := hs.fate.trailing hp
        exact ⟨i, by rw [hr, h4], h5⟩
    · exact absurd (hs.fate.inner s1 q h2 h1 h3) hni
  have inside : ∀ d ∈ z.decos r false, r <+: d.ref ∧ (placeComment d).target ∈ z.refs r := by
    intro d hd
    obtain ⟨q, h1, h2, h3⟩ := view_ok z r false (fun h => by cases h) d hd
    refine ⟨⟨q, h1.symm⟩, ?_⟩
    obtain ⟨s, hs⟩ := fate h3
    obtain ⟨y, hy⟩ := hs.node
    rw [mem_refs, hs.target]
    refine ⟨q ++ s, by rw [h1, List.append_assoc], ?_⟩
    rw [nodeAt_append, h2]
    simp only [hy, Option.isSome_some]
  -- which comments trail the node
  have t1 : attachedTo D1 .trailing r = [] := by
    refine attachedTo_nil fun d hd hp => ?_
    obtain ⟨s, hs⟩ := hD d ((mem d).2 (.inl hd))
    obtain ⟨i, h1, h2⟩ := hs.fate.trailing (by rw [hp])
    have hr : r = d.ref ++ [i] := by rw [← h1, ← hs.fate.target, hp]
    have := (sp.before d hd).2
    rw [hr] at this
    have := le_child this
    omega
  have tS : attachedTo (z.decos r false) .trailing r = [] := by
    refine attachedTo_nil fun d hd hp => ?_
    obtain ⟨s, hs⟩ := hD d ((mem d).2 (.inr (.inl hd)))
    obtain ⟨i, h1, h2⟩ := hs.fate.trailing (by rw [hp])
    have hr : r = d.ref ++ [i] := by rw [← h1, ← hs.fate.target, hp]
    have h3 := (inside d hd).1.length_le
    have h4 := congrArg List.length hr
    rw [List.length_append, List.length_singleton] at h4
    omega
  have ht : (annAt (D.map Deco.placed) r).trailing.dropWhile Comment.within =
      (attachedTo D2 .trailing r).map fun d => d.placed.comment := by
    rw [annAt_eq]
    dsimp only
    rw [sp.eq, attachedTo_append, attachedTo_append, t1, tS]
    simp only [List.nil_append]
    apply dropWhile_none
    intro c hc
    obtain ⟨d, hd, rfl⟩ := List.mem_map.1 hc
    obtain ⟨hd, hp⟩ := mem_attachedTo.1 hd
    have : d.placed.comment.within = r.isPrefixOf d.ref := by
      simp only [Deco.placed, hp]
    rw [this, Bool.eq_false_iff]
    intro h
    rw [List.isPrefixOf_iff_prefix] at h
    exact (sp.after d hd).1 h
  -- which comments lead the node
  have within : ∀ d, placeComment d = ⟨.leading, r⟩ → d.placed.comment.within = !d.precedes r := by
    intro d hp
    simp only [Deco.placed, hp]
  have w1 : ∀ d ∈ attachedTo D1 .leading r, (!d.placed.comment.within) = true := by
    intro d hd
    obtain ⟨hd, hp⟩ := mem_attachedTo.1 hd
    rw [within d hp]
    simp [Deco.precedes, (sp.before d hd).2]
  have wS : ∀ d ∈ attachedTo (z.decos r false) .leading r, (!d.placed.comment.within) = false := by
    intro d hd
    obtain ⟨hd, hp⟩ := mem_attachedTo.1 hd
    have hpre := (inside d hd).1
    rw [within d hp, Bool.not_not]
    have h1 : (r == d.ref ++ [d.gap - 1]) = false := by
      rw [beq_eq_false_iff_ne]
      intro h
      have h3 := hpre.length_le
      have h4 := congrArg List.length h
      rw [List.length_append, List.length_singleton] at h4
      omega
    simp [Deco.precedes, le_below hpre, h1]
  have w2 : ∀ d ∈ attachedTo D2 .leading r, (!d.placed.comment.within) = true ∧ z.tokens = [] := by
    intro d hd
    obtain ⟨hd, hp⟩ := mem_attachedTo.1 hd
    have hmem : d ∈ D := (mem d).2 (.inr (.inr hd))
    rcases hl d hmem hp with h | h
    · refine ⟨by rw [within d hp, Bool.not_not, h], ?_⟩
      unfold Deco.precedes at h
      rw [(sp.after d hd).2, Bool.false_or, Bool.and_eq_true, Bool.and_eq_true, beq_iff_eq] at h
      obtain ⟨⟨-, hr⟩, hf⟩ := h
      obtain ⟨s, hs⟩ := hD d hmem
      rw [hr, nodeAt_suffix hs] at hz
      cases hsl : d.enclosing.parts.slot (d.gap - 1) with
      | none => rw [hsl] at hf; cases hf
      | some y =>
        rw [hsl] at hf
        rw [slot_nodeAt hsl] at hz
        cases hz
        dsimp only at hf
        rw [view_first] at hf
        cases hzt : z.tokens with
        | nil => rfl
        | cons => rw [hzt] at hf; cases hf
    · exact absurd h (sp.after d hd).1
  have hS : (z.decos r false).map Deco.text = commentTexts (innerTrivia z.tokens) := by
    rw [view_decos, gapsOf_inner]
  have hle : texts ((annAt (D.map Deco.placed) r).leading.takeWhile (fun c => !c.within)) =
      (attachedTo D1 .leading r ++ attachedTo D2 .leading r).map Deco.text := by
    rw [annAt_eq]
    dsimp only
    rw [sp.eq, attachedTo_append, attachedTo_append, ← texts_placed]
    congr 1
    by_cases h2 : attachedTo D2 .leading r = []
    · rw [h2, List.append_nil, List.append_nil, List.map_append, List.takeWhile_append_of_pos,
        takeWhile_none, List.append_nil]
      · intro c hc
        obtain ⟨d, hd, rfl⟩ := List.mem_map.1 hc
        exact wS d hd
      · intro c hc
        obtain ⟨d, hd, rfl⟩ := List.mem_map.1 hc
        exact w1 d hd
    · obtain ⟨d, hd⟩ := List.exists_mem_of_ne_nil _ h2
      have hz0 := (w2 d hd).2
      have hS0 : z.decos r false = [] := by
        rw [hz0] at hS
        exact List.map_eq_nil_iff.1 hS
      rw [hS0]
      have : attachedTo [] .leading r = [] := rfl
      rw [this, List.append_nil]
      apply takeWhile_all
      intro c hc
      obtain ⟨d, hd, rfl⟩ := List.mem_map.1 hc
      rcases List.mem_append.1 hd with hd | hd
      · exact w1 d hd
      · exact (w2 d hd).1
  -- the comments of the subtree
  have f1 : D1.filter (fun d => decide ((placeComment d).target ∈ z.refs r)) =
      attachedTo D1 .leading r := by
    refine List.filter_congr fun d hd => ?_
    rw [Bool.eq_iff_iff, decide_eq_true_iff, beq_iff_eq]
    constructor
    · intro h
      rcases outside d ((mem d).2 (.inl hd)) (sp.before d hd).1 h with h | ⟨h, -⟩
      · exact h
      · have : d ∈ attachedTo D1 .trailing r := mem_attachedTo.2 ⟨hd, h⟩
        rw [t1] at this
        cases this
    · intro h
      rw [h, mem_refs]
      exact ⟨[], by simp, rfl⟩
  have fS : (z.decos r false).filter (fun d => decide ((placeComment d).target ∈ z.refs r)) =
      z.decos r false := by
    rw [List.filter_eq_self]
    intro d hd
    simpa using (inside d hd).2
  have f2 : (D2.filter (fun d => decide ((placeComment d).target ∈ z.refs r))).Perm
      (attachedTo D2 .leading r ++ attachedTo D2 .trailing r) := by
    refine List.Perm.trans ?_ (filter_or_perm _ _ ?_ D2)
    · rw [List.filter_congr]
      intro d hd
      rw [Bool.eq_iff_iff, decide_eq_true_iff, Bool.or_eq_true, beq_iff_eq, beq_iff_eq]
      constructor
      · intro h
        rcases outside d ((mem d).2 (.inr (.inr hd))) (sp.after d hd).1 h with h | ⟨h, -⟩
        · exact .inl h
        · exact .inr h
      · rintro (h | h)
        · rw [h, mem_refs]
          exact ⟨[], by simp, rfl⟩
        · rw [h, mem_refs]
          exact ⟨[], by simp, rfl⟩
    · intro d hd
      rw [beq_iff_eq] at hd
      rw [hd]
      simp
  unfold VerbOk
  rw [hle, ht, texts_placed, ← hS]
  refine List.Perm.trans ?_ (texts_commentsAt D _ (nodup_refs _ _)).symm
  have hf : (D.filter fun d => decide ((placeComment d).target ∈ z.refs r)) =
      attachedTo D1 .leading r ++ z.decos r false ++
        D2.filter (fun d => decide ((placeComment d).target ∈ z.refs r)) := by
    conv => lhs; arg 2; rw [sp.eq]
    rw [List.filter_append, List.filter_append, f1, fS]
  rw [hf]
  have h2 := f2.map Deco.text
  simp only [List.map_append] at h2 ⊢
  refine List.Perm.trans ?_ (h2.symm.append_left _)
  simp only [List.append_assoc]
  refine List.Perm.append_left _ ?_
  rw [← List.append_assoc, ← List.append_assoc]
  exact List.perm_append_comm.append_right _

end Verif.Format
