import Verif.Spec.Steady
import Verif.Lemmas.FormatCalm
import Verif.Lemmas.PlacementVerbs

/-!
# Files without directives and listed functions
-/

namespace Verif.Format
open Verif.Syntax Verif.Directive

variable {o : Opts}

theorem keptIn_ordinary {w dir chain : Bool} {e : Expr} {P : Prop} (h : e.ordinary o = true) (hP : P) :
    KeptIn o w dir chain e P := by
  unfold KeptIn keptAt
  rw [ordinary_kept h]
  exact hP

mutual
/-- Nothing is kept as written in ordinary expressions. -/
theorem ordinary_steady : (e : Expr) → (p w dir chain : Bool) → e.ordinary o = true →
    Steady o p w dir chain none e
  | .atom .., _, _, _, _, h => keptIn_ordinary h trivial
  | .str .., _, _, _, _, h => keptIn_ordinary h trivial
  | .paren a l e r, _, _, _, _, h => by
    have h' := h
    simp only [Expr.ordinary, Bool.and_eq_true] at h'
    exact keptIn_ordinary h (ordinary_steady e _ _ _ _ h'.2)
  | .braced a l es r, _, _, _, _, h => by
    have h' := h
    simp only [Expr.ordinary, Bool.and_eq_true] at h'
    exact keptIn_ordinary h (ordinary_steadyL es h'.2)
  | .unary a q e, _, _, _, _, h => by
    have h' := h
    simp only [Expr.ordinary, Bool.and_eq_true] at h'
    exact keptIn_ordinary h (ordinary_steady e _ _ _ _ h'.2)
  | .binary a x q y, _, _, dir, _, h => by
    have h' := h
    simp only [Expr.ordinary, Bool.and_eq_true] at h'
    refine keptIn_ordinary h ⟨ordinary_steady x _ _ _ _ h'.1.2, ?_⟩
    rw [ordinary_dir h'.1.1 _ (.inr rfl), Bool.and_false, if_neg (by decide)]
    exact ordinary_steady y _ _ _ _ h'.2
  | .sel a k x q y, _, _, _, _, h => by
    have h' := h
    simp only [Expr.ordinary, Bool.and_eq_true] at h'
    exact keptIn_ordinary h ⟨ordinary_steady x _ _ _ _ h'.1.2, ordinary_steady y _ _ _ _ h'.2⟩
  | .call a k f aa l items r, _, _, dir, _, h => by
    have h' := h
    simp only [Expr.ordinary, Bool.and_eq_true, Bool.not_eq_true'] at h'
    refine keptIn_ordinary h ⟨ordinary_steady f _ _ _ _ h'.1.2, ordinary_steadyI items h'.2, fun ht => ?_⟩
    unfold tableAt isTable at ht
    rw [Option.getD_none, ordinary_dir h'.1.1.1 _ (.inr rfl), (listed_setting h'.1.1.2).2] at ht
    simp at ht
  | .func a kw pa l items r b, _, _, _, _, h => by
    have h' := h
    simp only [Expr.ordinary, Bool.and_eq_true] at h'
    exact keptIn_ordinary h ⟨ordinary_steadyI items h'.1.2, ordinary_steady b _ _ _ _ h'.2⟩
  | .ite a kw l c r t, _, _, _, _, h => by
    have h' := h
    simp only [Expr.ordinary, Bool.and_eq_true] at h'
    exact keptIn_ordinary h ⟨ordinary_steady c _ _ _ _ h'.1.2, ordinary_steady t _ _ _ _ h'.2⟩
  | .itee a kw l c r t ea el e, _, _, _, _, h => by
    have h' := h
    simp only [Expr.ordinary, Bool.and_eq_true] at h'
    exact keptIn_ordinary h ⟨ordinary_steady c _ _ _ _ h'.1.1.2, ordinary_steady t _ _ _ _ h'.1.2,
      ordinary_steady e _ _ _ _ h'.2⟩
  | .for_ a kw l v i s r b, _, _, _, _, h => by
    have h' := h
    simp only [Expr.ordinary, Bool.and_eq_true] at h'
    exact keptIn_ordinary h ⟨ordinary_steady v _ _ _ _ h'.1.1.2, ordinary_steady s _ _ _ _ h'.1.2,
      ordinary_steady b _ _ _ _ h'.2⟩
  | .while_ a kw l c r b, _, _, _, _, h => by
    have h' := h
    simp only [Expr.ordinary, Bool.and_eq_true] at h'
    exact keptIn_ordinary h ⟨ordinary_steady c _ _ _ _ h'.1.2, ordinary_steady b _ _ _ _ h'.2⟩
  | .repeat_ a kw b, _, _, _, _, h => by
    have h' := h
    simp only [Expr.ordinary, Bool.and_eq_true] at h'
    exact keptIn_ordinary h (ordinary_steady b _ _ _ _ h'.2)
theorem ordinary_steadyL : (es : Exprs) → es.ordinary o = true → SteadyL o es
  | .nil, _ => trivial
  | .cons e es, h => by
    simp only [Exprs.ordinary, Bool.and_eq_true] at h
    exact ⟨ordinary_steady e _ _ _ _ h.1, ordinary_steadyL es h.2⟩
theorem ordinary_steadyI : (xs : Items) → xs.ordinary o = true → SteadyI o xs
  | .nil, _ => trivial
  | .last x, h => ordinary_steadyA x h
  | .cons x _ xs, h => by
    simp only [Items.ordinary, Bool.and_eq_true] at h
    exact ⟨ordinary_steadyA x h.1, ordinary_steadyI xs h.2⟩
theorem ordinary_steadyA : (x : Arg) → x.ordinary o = true → SteadyA o x
  | .hole _, _ => trivial
  | .val a e, h => by
    simp only [Arg.ordinary, Bool.and_eq_true] at h
    exact ordinary_steady e _ _ _ _ h.2
  | .name a b n q, h => by
    simp only [Arg.ordinary, Bool.and_eq_true] at h
    exact ordinary_steady n _ _ _ _ h.2
  | .named a b n q e, h => by
    simp only [Arg.ordinary, Bool.and_eq_true] at h
    exact ⟨ordinary_steady n _ _ _ _ h.1.2, ordinary_steady e _ _ _ _ h.2⟩
  | .pdef a n b q e, h => by
    simp only [Arg.ordinary, Bool.and_eq_true] at h
    exact ⟨ordinary_steady n _ _ _ _ h.1.2, ordinary_steady e _ _ _ _ h.2⟩
end

/-- No comment is a directive. -/
def Silent (o : Opts) (P : List Placed) : Prop := ∀ r, (annAt P r).ordinary o = true

/-- No token is a listed name. -/
def Unlisted (o : Opts) (ts : List Token) : Prop :=
  ∀ t ∈ ts, o.skip t.text = false ∧ o.table t.text = false

theorem Unlisted.left {a b : List Token} (h : Unlisted o (a ++ b)) : Unlisted o a :=
  fun t ht => h t (List.mem_append_left _ ht)
theorem Unlisted.right {a b : List Token} (h : Unlisted o (a ++ b)) : Unlisted o b :=
  fun t ht => h t (List.mem_append_right _ ht)
theorem Unlisted.tail {t : Token} {b : List Token} (h : Unlisted o (t :: b)) : Unlisted o b :=
  fun t ht => h t (List.mem_cons_of_mem _ ht)

theorem unlisted_listed {P : List Placed} {f : Expr} {r : Ref} (h : Unlisted o f.tokens) :
    listed o (f.annotate P r) = false := by
  cases f with
  | atom a k t =>
    have := h t (by simp [Expr.tokens])
    cases k <;> simp_all [Expr.annotate, listed]
  | sel a k x q y =>
    cases k with
    | extract => rfl
    | «namespace» =>
      cases y with
      | atom b k t =>
        have := h t (by simp [Expr.tokens])
        cases k <;> simp_all [Expr.annotate, listed]
      | _ => rfl
  | _ => rfl

mutual
theorem ordinary_annotate {P : List Placed} (hP : Silent o P) : (e : Expr) → (r : Ref) →
    Unlisted o e.tokens → (e.annotate P r).ordinary o = true
  | .atom .., _, _ => hP _
  | .str .., _, _ => hP _
  | .paren a l e q, r, h => by
    have h1 : Unlisted o e.tokens := h.tail.left
    simp [Expr.annotate, Expr.ordinary, hP _, ordinary_annotate hP e _ h1]
  | .braced a l es q, r, h => by
    have h1 : Unlisted o es.tokens := h.tail.left
    simp [Expr.annotate, Expr.ordinary, hP _, ordinarys_annotate hP es _ _ h1]
  | .unary a q e, r, h => by
    have h1 : Unlisted o e.tokens := h.tail
    simp [Expr.annotate, Expr.ordinary, hP _, ordinary_annotate hP e _ h1]
  | .binary a x q y, r, h => by
    have h1 : Unlisted o x.tokens := h.left
    have h2 : Unlisted o y.tokens := h.right.tail
    simp [Expr.annotate, Expr.ordinary, hP _, ordinary_annotate hP x _ h1, ordinary_annotate hP y _ h2]
  | .sel a k x q y, r, h => by
    have h1 : Unlisted o x.tokens := h.left
    have h2 : Unlisted o y.tokens := h.right.tail
    simp [Expr.annotate, Expr.ordinary, hP _, ordinary_annotate hP x _ h1, ordinary_annotate hP y _ h2]
  | .call a k f aa l items q, r, h => by
    have h1 : Unlisted o f.tokens := h.left
    have h2 : Unlisted o items.tokens := h.right.tail.left
    simp [Expr.annotate, Expr.ordinary, hP _, ordinary_annotate hP f _ h1,
      ordinaryItems_annotate hP items _ _ h2, unlisted_listed h1]
  | .func a kw pa l items q b, r, h => by
    have h1 : Unlisted o items.tokens := h.tail.tail.left
    have h2 : Unlisted o b.tokens := h.tail.tail.right.tail
    simp [Expr.annotate, Expr.ordinary, hP _, ordinaryItems_annotate hP items _ _ h1,
      ordinary_annotate hP b _ h2]
  | .ite a kw l c q t, r, h => by
    have h1 : Unlisted o c.tokens := h.tail.tail.left
    have h2 : Unlisted o t.tokens := h.tail.tail.right.tail
    simp [Expr.annotate, Expr.ordinary, hP _, ordinary_annotate hP c _ h1, ordinary_annotate hP t _ h2]
  | .itee a kw l c q t ea el e, r, h => by
    have h1 : Unlisted o c.tokens := h.tail.tail.left
    have h2 : Unlisted o t.tokens := h.tail.tail.right.tail.left
    have h3 : Unlisted o e.tokens := h.tail.tail.right.tail.right.tail
    simp [Expr.annotate, Expr.ordinary, hP _, ordinary_annotate hP c _ h1, ordinary_annotate hP t _ h2,
      ordinary_annotate hP e _ h3]
  | .for_ a kw l v i s q b, r, h => by
    have h1 : Unlisted o v.tokens := h.tail.tail.left
    have h2 : Unlisted o s.tokens := h.tail.tail.right.tail.left
    have h3 : Unlisted o b.tokens := h.tail.tail.right.tail.right.tail
    simp [Expr.annotate, Expr.ordinary, hP _, ordinary_annotate hP v _ h1, ordinary_annotate hP s _ h2,
      ordinary_annotate hP b _ h3]
  | .while_ a kw l c q b, r, h => by
    have h1 : Unlisted o c.tokens := h.tail.tail.left
    have h2 : Unlisted o b.tokens := h.tail.tail.right.tail
    simp [Expr.annotate, Expr.ordinary, hP _, ordinary_annotate hP c _ h1, ordinary_annotate hP b _ h2]
  | .repeat_ a kw b, r, h => by
    have h1 : Unlisted o b.tokens := h.tail
    simp [Expr.annotate, Expr.ordinary, hP _, ordinary_annotate hP b _ h1]
theorem ordinarys_annotate {P : List Placed} (hP : Silent o P) : (es : Exprs) → (r : Ref) → (i : Nat) →
    Unlisted o es.tokens → (es.annotate P r i).ordinary o = true
  | .nil, _, _, _ => rfl
  | .cons e es, r, i, h => by
    simp [Exprs.annotate, Exprs.ordinary, ordinary_annotate hP e _ h.left, ordinarys_annotate hP es _ _ h.right]
theorem ordinaryItems_annotate {P : List Placed} (hP : Silent o P) : (xs : Items) → (r : Ref) →
    (i : Nat) → Unlisted o xs.tokens → (xs.annotate P r i).ordinary o = true
  | .nil, _, _, _ => rfl
  | .last x, r, i, h => by
    simp [Items.annotate, Items.ordinary, ordinaryArg_annotate hP x _ h]
  | .cons x q xs, r, i, h => by
    have h2 : Unlisted o xs.tokens := h.right.tail
    simp [Items.annotate, Items.ordinary, ordinaryArg_annotate hP x _ h.left,
      ordinaryItems_annotate hP xs _ _ h2]
theorem ordinaryArg_annotate {P : List Placed} (hP : Silent o P) : (x : Arg) → (r : Ref) →
    Unlisted o x.tokens → (x.annotate P r).ordinary o = true
  | .hole _, _, _ => hP _
  | .val a e, r, h => by simp [Arg.annotate, Arg.ordinary, hP _, ordinary_annotate hP e _ h]
  | .name a b n q, r, h => by
    have h1 : Unlisted o n.tokens := h.left
    simp [Arg.annotate, Arg.ordinary, hP _, ordinary_annotate hP n _ h1]
  | .named a b n q e, r, h => by
    have h1 : Unlisted o n.tokens := h.left
    have h2 : Unlisted o e.tokens := h.right.tail
    simp [Arg.annotate, Arg.ordinary, hP _, ordinary_annotate hP n _ h1, ordinary_annotate hP e _ h2]
  | .pdef a n b q e, r, h => by
    have h1 : Unlisted o n.tokens := h.left
    have h2 : Unlisted o e.tokens := h.right.tail
    simp [Arg.annotate, Arg.ordinary, hP _, ordinary_annotate hP n _ h1, ordinary_annotate hP e _ h2]
end

/-- A file without directives and without listed names is ordinary. -/
theorem ordinary_attach (x : Root) (hd : ∀ t ∈ x.sourceComments, o.directive t = none)
    (hn : Unlisted o x.es.tokens) : x.attach.es.ordinary o = true := by
  refine ordinarys_annotate (fun r => ?_) _ _ _ hn
  have key : ∀ d, (annAt ((x.view.decos [] true).map Deco.placed) r).asks o d = false := by
    intro d
    unfold Ann.asks
    rw [annAt_eq, List.any_eq_false]
    intro c hc
    obtain ⟨dd, hdd, rfl⟩ := List.mem_map.1 hc
    have : dd.text ∈ x.sourceComments := by
      rw [← root_decos]
      exact List.mem_map_of_mem (mem_attachedTo.1 hdd).1
    have h1 : o.directive dd.text = none := hd _ this
    show ¬ (o.directive dd.text == some d) = true
    rw [h1]
    cases d <;> decide
  show (!(annAt ((x.view.decos [] true).map Deco.placed) r).asks o .skip &&
    !(annAt ((x.view.decos [] true).map Deco.placed) r).asks o .table) = true
  rw [key, key]
  rfl

theorem rootSuppressed_attach (x : Root)
    (hd : ∀ t ∈ x.sourceComments, o.directive t = none ∧ o.generated t = false) :
    rootSuppressed o x.attach.es = false := by
  have key : ∀ r, ∀ c ∈ (annAt ((x.view.decos [] true).map Deco.placed) r).leading,
      o.directive c.text = none ∧ o.generated c.text = false := by
    intro r c hc
    rw [annAt_eq] at hc
    obtain ⟨dd, hdd, rfl⟩ := List.mem_map.1 hc
    refine hd _ ?_
    rw [← root_decos]
    exact List.mem_map_of_mem (mem_attachedTo.1 hdd).1
  have h : ∀ es : Exprs, rootSuppressed o (es.annotate ((x.view.decos [] true).map Deco.placed) [] 0) = false := by
    intro es
    cases es with
    | nil => rfl
    | cons e es =>
      have h1 := key ([] ++ [0])
      rw [← annotate_ann _ e] at h1
      simp only [Exprs.annotate, rootSuppressed]
      split
      · rfl
      · rename_i c cs hl
        rw [hl] at h1
        rw [(h1 c (by simp)).2, Bool.false_or, List.any_eq_false]
        intro c' hc'
        rw [(h1 c' hc').1]
        decide
  exact h x.es

end Verif.Format
