import Verif.Lemmas.PlacementFate

/-!
# Every comment is attached to one node
-/

namespace Verif.Format
open Verif.Syntax

mutual
/-- The nodes of a tree, parents first. -/
def View.refs (r : Ref) : View → List Ref
  | .node _ ps => r :: ps.refs r 0
def Parts.refs (r : Ref) (i : Nat) : Parts → List Ref
  | .nil => []
  | .tok _ ps => ps.refs r (i + 1)
  | .sub x ps => x.refs (r ++ [i]) ++ ps.refs r (i + 1)
end

/-- All comments of the nodes. -/
def commentsAt (P : List Placed) (rs : List Ref) : List Comment := rs.flatMap fun q => (annAt P q).all

theorem commentsAt_cons (P : List Placed) (q : Ref) (rs : List Ref) :
    commentsAt P (q :: rs) = (annAt P q).all ++ commentsAt P rs := by simp [commentsAt]
theorem commentsAt_append (P : List Placed) (x y : List Ref) :
    commentsAt P (x ++ y) = commentsAt P x ++ commentsAt P y := by simp [commentsAt]
theorem commentsAt_nil (P : List Placed) : commentsAt P [] = [] := rfl

mutual
theorem annotate_comments (P : List Placed) : (e : Expr) → (r : Ref) →
    (e.annotate P r).comments = commentsAt P (e.view.refs r)
  | .atom .., r => by
    simp [Expr.annotate, Expr.comments, Expr.view, View.refs, Parts.one, Parts.refs, commentsAt_cons,
      commentsAt_nil]
  | .str _ o c l, r => by
    cases c <;>
    simp [Expr.annotate, Expr.comments, Expr.view, View.refs, Parts.one, Parts.refs, commentsAt_cons,
      commentsAt_nil]
  | .paren _ l e t, r => by
    simp [Expr.annotate, Expr.comments, Expr.view, View.refs, Parts.one, Parts.refs, commentsAt_cons,
      commentsAt_append, annotate_comments P e]
  | .braced _ l es t, r => by
    simp [Expr.annotate, Expr.comments, Expr.view, View.refs, Parts.refs, commentsAt_cons,
      annotates_comments P es t]
  | .unary _ p e, r => by
    simp [Expr.annotate, Expr.comments, Expr.view, View.refs, Parts.refs, commentsAt_cons,
      annotate_comments P e]
  | .binary _ x p y, r => by
    simp [Expr.annotate, Expr.comments, Expr.view, View.refs, Parts.refs, commentsAt_cons,
      commentsAt_append, annotate_comments P x, annotate_comments P y]
  | .sel _ k x p y, r => by
    simp [Expr.annotate, Expr.comments, Expr.view, View.refs, Parts.refs, commentsAt_cons,
      commentsAt_append, annotate_comments P x, annotate_comments P y]
  | .call _ k f _ l items t, r => by
    simp [Expr.annotate, Expr.comments, Expr.view, View.refs, Parts.refs, commentsAt_cons,
      commentsAt_append, annotate_comments P f, annotate_items P true t items]
  | .func _ kw _ l items t b, r => by
    simp [Expr.annotate, Expr.comments, Expr.view, View.refs, Parts.refs, commentsAt_cons,
      commentsAt_append, annotate_comments P b, annotate_items P false t items]
  | .ite _ kw l c t b, r => by
    simp [Expr.annotate, Expr.comments, Expr.view, View.refs, Parts.refs, commentsAt_cons,
      commentsAt_append, annotate_comments P c, annotate_comments P b]
  | .itee _ kw l c t b _ el e, r => by
    simp [Expr.annotate, Expr.comments, Expr.view, View.refs, Parts.refs, commentsAt_cons,
      commentsAt_append, annotate_comments P c, annotate_comments P b, annotate_comments P e]
  | .for_ _ kw l v i s t b, r => by
    simp [Expr.annotate, Expr.comments, Expr.view, View.refs, Parts.refs, commentsAt_cons,
      commentsAt_append, annotate_comments P v, annotate_comments P s, annotate_comments P b]
  | .while_ _ kw l c t b, r => by
    simp [Expr.annotate, Expr.comments, Expr.view, View.refs, Parts.refs, commentsAt_cons,
      commentsAt_append, annotate_comments P c, annotate_comments P b]
  | .repeat_ _ kw b, r => by
    simp [Expr.annotate, Expr.comments, Expr.view, View.refs, Parts.refs, commentsAt_cons,
      annotate_comments P b]
theorem annotates_comments (P : List Placed) : (es : Exprs) → (t : Token) → (r : Ref) → (i : Nat) →
    (es.annotate P r i).comments = commentsAt P ((es.view t).refs r i)
  | .nil, t, r, i => by
    simp [Exprs.annotate, Exprs.comments, Exprs.view, Parts.one, Parts.refs, commentsAt_nil]
  | .cons e es, t, r, i => by
    simp [Exprs.annotate, Exprs.comments, Exprs.view, Parts.refs, commentsAt_append,
      annotate_comments P e, annotates_comments P es t]
theorem annotate_items (P : List Placed) (call : Bool) (t : Token) : (xs : Items) → (r : Ref) →
    (i : Nat) → (xs.annotate P r i).comments = commentsAt P ((xs.view call t).refs r i)
  | .nil, r, i => by
    simp [Items.annotate, Items.comments, Items.view, Parts.one, Parts.refs, commentsAt_nil]
  | .last x, r, i => by
    simp [Items.annotate, Items.comments, Items.view, Parts.one, Parts.refs,
      annotate_arg P call x]
  | .cons x s xs, r, i => by
    simp [Items.annotate, Items.comments, Items.view, Parts.refs, commentsAt_append,
      annotate_arg P call x, annotate_items P call t xs]
theorem annotate_arg (P : List Placed) (call : Bool) : (x : Arg) → (r : Ref) →
    (x.annotate P r).comments = commentsAt P ((x.view call).refs r)
  | .hole _, r => by
    simp [Arg.annotate, Arg.comments, Arg.view, View.refs, Parts.refs, commentsAt_cons, commentsAt_nil]
  | .val _ e, r => by
    simp [Arg.annotate, Arg.comments, Arg.view, View.refs, Parts.refs, commentsAt_cons,
      annotate_comments P e]
  | .name _ _ n q, r => by
    simp [Arg.annotate, Arg.comments, Arg.view, View.refs, Parts.one, Parts.refs, commentsAt_cons,
      annotate_comments P n]
  | .named _ _ n q e, r => by
    simp [Arg.annotate, Arg.comments, Arg.view, View.refs, Parts.one, Parts.refs, commentsAt_cons,
      commentsAt_append, annotate_comments P n, annotate_comments P e]
  | .pdef _ n _ q e, r => by
    simp [Arg.annotate, Arg.comments, Arg.view, View.refs, Parts.refs, commentsAt_cons,
      commentsAt_append, annotate_comments P n, annotate_comments P e]
end

mutual
theorem mem_refs : (x : View) → (r q : Ref) →
    (q ∈ x.refs r ↔ ∃ q', q = r ++ q' ∧ (x.nodeAt q').isSome)
  | .node k ps, r, q => by
    rw [View.refs, List.mem_cons, mem_partRefs ps]
    constructor
    · rintro (rfl | ⟨j, y, q', h1, h2, h3⟩)
      · exact ⟨[], by simp, rfl⟩
      · refine ⟨j :: q', by simpa using h2, ?_⟩
        simp only [View.nodeAt, View.parts, h1]
        exact h3
    · rintro ⟨q', h1, h2⟩
      cases q' with
      | nil => exact .inl (by simpa using h1)
      | cons j q' =>
        simp only [View.nodeAt, View.parts] at h2
        cases hs : ps.slot j with
        | none => rw [hs] at h2; cases h2
        | some y =>
          rw [hs] at h2
          exact .inr ⟨j, y, q', hs, by simpa using h1, h2⟩
theorem mem_partRefs : (ps : Parts) → (r : Ref) → (i : Nat) → (q : Ref) →
    (q ∈ ps.refs r i ↔ ∃ j y q', ps.slot j = some y ∧ q = r ++ (i + j) :: q' ∧ (y.nodeAt q').isSome)
  | .nil, r, i, q => by simp [Parts.refs, Parts.slot]
  | .tok t ps, r, i, q => by
    rw [Parts.refs, mem_partRefs ps]
    constructor
    · rintro ⟨j, y, q', h1, h2, h3⟩
      refine ⟨j + 1, y, q', h1, ?_, h3⟩
      rw [h2]; congr 2; omega
    · rintro ⟨j, y, q', h1, h2, h3⟩
      cases j with
      | zero => cases h1
      | succ j =>
        refine ⟨j, y, q', h1, ?_, h3⟩
        rw [h2]; congr 2; omega
  | .sub x ps, r, i, q => by
    rw [Parts.refs, List.mem_append, mem_refs x, mem_partRefs ps]
    constructor
    · rintro (⟨q', h1, h2⟩ | ⟨j, y, q', h1, h2, h3⟩)
      · exact ⟨0, x, q', rfl, by simp [h1], h2⟩
      · refine ⟨j + 1, y, q', h1, ?_, h3⟩
        rw [h2]; congr 2; omega
    · rintro ⟨j, y, q', h1, h2, h3⟩
      cases j with
      | zero =>
        cases h1
        exact .inl ⟨q', by simp [h2], h3⟩
      | succ j =>
        refine .inr ⟨j, y, q', h1, ?_, h3⟩
        rw [h2]; congr 2; omega
end

mutual
theorem nodup_refs : (x : View) → (r : Ref) → (x.refs r).Nodup
  | .node k ps, r => by
    rw [View.refs, List.nodup_cons]
    refine ⟨?_, nodup_partRefs ps r 0⟩
    rw [mem_partRefs]
    rintro ⟨j, y, q', -, h, -⟩
    have := congrArg List.length h
    simp at this
theorem nodup_partRefs : (ps : Parts) → (r : Ref) → (i : Nat) → (ps.refs r i).Nodup
  | .nil, _, _ => List.nodup_nil
  | .tok t ps, r, i => nodup_partRefs ps r (i + 1)
  | .sub x ps, r, i => by
    rw [Parts.refs, List.nodup_append]
    refine ⟨nodup_refs x _, nodup_partRefs ps r _, ?_⟩
    intro a ha b hb hab
    subst hab
    obtain ⟨q, h1, -⟩ := (mem_refs _ _ _).1 ha
    obtain ⟨j, y, q', -, h2, -⟩ := (mem_partRefs _ _ _ _).1 hb
    rw [h1, List.append_assoc] at h2
    have := List.append_cancel_left h2
    simp at this
    omega
end

/-- Filters for disjoint conditions. -/
theorem filter_or_perm {α : Type} (p q : α → Bool) (h : ∀ x, p x = true → q x = false) (l : List α) :
    (l.filter fun x => p x || q x).Perm (l.filter p ++ l.filter q) := by
  induction l with
  | nil => exact .refl _
  | cons a l ih =>
    cases hp : p a with
    | true =>
      simp only [List.filter_cons, hp, h a hp, Bool.true_or, if_true, Bool.false_eq_true, if_false,
        List.cons_append]
      exact ih.cons a
    | false =>
      cases hq : q a with
      | true =>
        simp only [List.filter_cons, hp, hq, Bool.or_true, if_true, Bool.false_eq_true, if_false]
        exact (ih.cons a).trans List.perm_middle.symm
      | false =>
        simp only [List.filter_cons, hp, hq, Bool.or_false, Bool.false_eq_true, if_false]
        exact ih

theorem annAt_perm (P : List Placed) (q : Ref) :
    (annAt P q).all.Perm ((P.filter (fun p => p.to.target == q)).map Placed.comment) := by
  have key : ∀ p : Placed, (p.to.target == q) =
      ((p.to == ⟨.leading, q⟩ || p.to == ⟨.dangling, q⟩) || p.to == ⟨.trailing, q⟩) := by
    rintro ⟨⟨w, t⟩, c⟩
    by_cases h : t = q
    · subst h
      cases w <;> simp
    · have h1 : (t == q) = false := by simpa using h
      rw [h1]
      cases w <;> simp [h]
  rw [List.filter_congr fun p _ => key p]
  have h1 := filter_or_perm (fun p : Placed => p.to == ⟨.leading, q⟩ || p.to == ⟨.dangling, q⟩)
    (fun p => p.to == ⟨.trailing, q⟩) (by
      rintro ⟨⟨w, t⟩, c⟩
      cases w <;> simp) P
  have h2 := filter_or_perm (fun p : Placed => p.to == ⟨.leading, q⟩)
    (fun p => p.to == ⟨.dangling, q⟩) (by
      rintro ⟨⟨w, t⟩, c⟩
      cases w <;> simp) P
  have h3 := (h1.trans (h2.append_right _)).map Placed.comment
  rw [List.map_append, List.map_append] at h3
  exact h3.symm

/-- The comments of distinct nodes are those attached to one of them. -/
theorem commentsAt_perm (P : List Placed) (rs : List Ref) (h : rs.Nodup) :
    (commentsAt P rs).Perm ((P.filter (fun p => decide (p.to.target ∈ rs))).map Placed.comment) := by
  induction rs with
  | nil => simp [commentsAt_nil]
  | cons q rs ih =>
    rw [List.nodup_cons] at h
    rw [commentsAt_cons]
    refine ((annAt_perm P q).append (ih h.2)).trans ?_
    rw [← List.map_append]
    refine List.Perm.map _ ?_
    have := filter_or_perm (fun p : Placed => p.to.target == q)
      (fun p => decide (p.to.target ∈ rs)) (by
        intro p hp
        simp only [beq_iff_eq] at hp
        rw [hp]
        simpa using h.1) P
    refine this.symm.trans ?_
    rw [List.filter_congr]
    intro p _
    rw [Bool.eq_iff_iff]
    simp

/-! ## Comments of a file -/

/-- Where the comments of the tree `X` can be. -/
structure Deco.Sound (X : View) (d : Deco) (s : Ref) : Prop where
  ok : d.Ok
  at_ : X.nodeAt d.ref = some d.enclosing
  fate : Fate d (placeComment d) s

theorem view_sound {X : View} {start : Bool} (h : start = true → X.kind = .rRoot) :
    ∀ d ∈ X.decos [] start, ∃ s, d.Sound X s := by
  intro d hd
  obtain ⟨q, h1, h2, h3⟩ := view_ok X [] start h d hd
  obtain ⟨s, hs⟩ := Verif.Format.fate h3
  rw [List.nil_append] at h1
  exact ⟨s, h3, h1 ▸ h2, hs⟩

/-- All comments of a tree are attached to one of its nodes. -/
theorem Deco.Sound.mem {X : View} {d : Deco} {s : Ref} (h : d.Sound X s) :
    (placeComment d).target ∈ X.refs [] := by
  rw [mem_refs]
  obtain ⟨y, hy⟩ := h.fate.node
  refine ⟨d.ref ++ s, h.fate.target, ?_⟩
  rw [nodeAt_append, h.at_]
  simp only [hy, Option.isSome_some]

theorem filter_map_placed (D : List Deco) (f : Ref → Bool) :
    texts (((D.map Deco.placed).filter (fun p => f p.to.target)).map Placed.comment) =
      (D.filter (fun d => f (placeComment d).target)).map Deco.text := by
  induction D with
  | nil => rfl
  | cons d D ih =>
    have hto : d.placed.to = placeComment d := rfl
    simp only [List.map_cons, List.filter_cons, hto]
    split
    · simp only [List.map_cons, texts] at *
      rw [ih]
      rfl
    · exact ih

/-- Comments of the nodes of a tree, by their texts. -/
theorem texts_commentsAt (D : List Deco) (rs : List Ref) (h : rs.Nodup) :
    (texts (commentsAt (D.map Deco.placed) rs)).Perm
      ((D.filter (fun d => decide ((placeComment d).target ∈ rs))).map Deco.text) := by
  refine ((commentsAt_perm _ _ h).map _).trans ?_
  rw [← filter_map_placed D (fun q => decide (q ∈ rs))]
  exact .refl _

/-- Every comment of a file is attached once. -/
theorem attach_comments (x : Root) :
    (texts x.attach.ann.all ++ texts x.attach.es.comments).Perm x.sourceComments := by
  have h1 : texts x.attach.ann.all ++ texts x.attach.es.comments =
      texts (commentsAt x.placed (x.view.refs [])) := by
    simp only [Root.attach, annotates_comments x.placed x.es x.eof, Root.view, View.refs, commentsAt_cons,
      texts, List.map_append]
  rw [h1]
  refine (texts_commentsAt _ _ (nodup_refs _ _)).trans ?_
  rw [List.filter_eq_self.2, root_decos]
  intro d hd
  obtain ⟨s, hs⟩ := view_sound (X := x.view) (fun _ => rfl) d hd
  simpa using hs.mem

end Verif.Format
