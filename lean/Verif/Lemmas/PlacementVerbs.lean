import Verif.Lemmas.PlacementVerb
import Verif.Lemmas.FormatCalm

/-!
# Comments of nodes that are kept as written, in all of a file
-/

namespace Verif.Format
open Verif.Syntax

mutual
theorem annotate_tokens (P : List Placed) : (e : Expr) → (r : Ref) → (e.annotate P r).tokens = e.tokens
  | .atom .., r => rfl
  | .str .., r => rfl
  | .paren _ l e t, r => by simp [Expr.annotate, Expr.tokens, annotate_tokens P e]
  | .braced _ l es t, r => by simp [Expr.annotate, Expr.tokens, annotates_tokens P es]
  | .unary _ p e, r => by simp [Expr.annotate, Expr.tokens, annotate_tokens P e]
  | .binary _ x p y, r => by simp [Expr.annotate, Expr.tokens, annotate_tokens P x, annotate_tokens P y]
  | .sel _ k x p y, r => by simp [Expr.annotate, Expr.tokens, annotate_tokens P x, annotate_tokens P y]
  | .call _ k f _ l items t, r => by
    simp [Expr.annotate, Expr.tokens, annotate_tokens P f, annotate_itemTokens P items]
  | .func _ kw _ l items t b, r => by
    simp [Expr.annotate, Expr.tokens, annotate_tokens P b, annotate_itemTokens P items]
  | .ite _ kw l c t b, r => by
    simp [Expr.annotate, Expr.tokens, annotate_tokens P c, annotate_tokens P b]
  | .itee _ kw l c t b _ el e, r => by
    simp [Expr.annotate, Expr.tokens, annotate_tokens P c, annotate_tokens P b, annotate_tokens P e]
  | .for_ _ kw l v i s t b, r => by
    simp [Expr.annotate, Expr.tokens, annotate_tokens P v, annotate_tokens P s, annotate_tokens P b]
  | .while_ _ kw l c t b, r => by
    simp [Expr.annotate, Expr.tokens, annotate_tokens P c, annotate_tokens P b]
  | .repeat_ _ kw b, r => by simp [Expr.annotate, Expr.tokens, annotate_tokens P b]
theorem annotates_tokens (P : List Placed) : (es : Exprs) → (r : Ref) → (i : Nat) →
    (es.annotate P r i).tokens = es.tokens
  | .nil, r, i => rfl
  | .cons e es, r, i => by simp [Exprs.annotate, Exprs.tokens, annotate_tokens P e, annotates_tokens P es]
theorem annotate_itemTokens (P : List Placed) : (xs : Items) → (r : Ref) → (i : Nat) →
    (xs.annotate P r i).tokens = xs.tokens
  | .nil, r, i => rfl
  | .last x, r, i => by simp [Items.annotate, Items.tokens, annotate_argTokens P x]
  | .cons x s xs, r, i => by
    simp [Items.annotate, Items.tokens, annotate_argTokens P x, annotate_itemTokens P xs]
theorem annotate_argTokens (P : List Placed) : (x : Arg) → (r : Ref) → (x.annotate P r).tokens = x.tokens
  | .hole _, r => rfl
  | .val _ e, r => by simp [Arg.annotate, Arg.tokens, annotate_tokens P e]
  | .name _ _ n q, r => by simp [Arg.annotate, Arg.tokens, annotate_tokens P n]
  | .named _ _ n q e, r => by
    simp [Arg.annotate, Arg.tokens, annotate_tokens P n, annotate_tokens P e]
  | .pdef _ n _ q e, r => by simp [Arg.annotate, Arg.tokens, annotate_tokens P n, annotate_tokens P e]
end

theorem annotate_ann (P : List Placed) (e : Expr) (r : Ref) : (e.annotate P r).ann = annAt P r := by
  cases e <;> rfl

variable {X : View} {D : List Deco} {o : Opts}

/-- A node of the tree with its comments. -/
structure Node (X : View) (D : List Deco) (r : Ref) (z : View) : Prop where
  at_ : X.nodeAt r = some z
  split : ∃ D1 D2, Split D r z D1 D2

theorem Node.child {r : Ref} {z y : View} {i : Nat} (h : Node X D r z) (hi : z.parts.slot i = some y) :
    Node X D (r ++ [i]) y := by
  obtain ⟨D1, D2, hs⟩ := h.split
  exact ⟨nodeAt_child h.at_ hi, hs.child hi⟩

/-- The parent of the node `r` is not a statement with a body. -/
def Tall (X : View) (r : Ref) : Prop := ∀ w, X.nodeAt r.dropLast = some w → ¬ headKind w.kind

theorem Node.tall {r : Ref} {z : View} (h : Node X D r z) (hk : ¬ headKind z.kind) (i : Nat) :
    Tall X (r ++ [i]) := by
  intro w hw
  rw [List.dropLast_concat, h.at_] at hw
  cases hw
  exact hk

theorem late_of (ht : Spared o X D) {r : Ref} {z : View} (hn : Node X D r z)
    (hk : (annAt (D.map Deco.placed) r).asks o .skip = true ∨ (z.kind = .rCall ∧ ∃ n, o.skip n = true)) :
    ∀ d ∈ D, placeComment d = ⟨.leading, r⟩ → d.precedes r = true ∨ r <+: d.ref := by
  intro d hd hp
  cases h1 : d.precedes r with
  | true => exact .inl rfl
  | false =>
    cases h2 : r.isPrefixOf d.ref with
    | true => exact .inr (List.isPrefixOf_iff_prefix.1 h2)
    | false =>
      have hl : d.late = true := by simp [Deco.late, hp, h1, h2]
      have := ht.skip d hd hl
      rw [hp] at this
      rcases hk with hk | ⟨hk, n, hn'⟩
      · rw [this.1] at hk; cases hk
      · rw [this.2 z hn.at_ hk n] at hn'; cases hn'

theorem kept_asked {dir chain : Bool} {e : Expr} {r : Ref}
    (h : keptAt o dir chain (e.annotate (D.map Deco.placed) r) = true) :
    (dir = true ∧ (annAt (D.map Deco.placed) r).asks o .skip = true) ∨
    (e.view.kind = .rCall ∧ ∃ n, o.skip n = true) := by
  unfold keptAt kept at h
  rw [Bool.and_eq_true] at h
  have h := h.2
  have key : ∀ e' : Expr, e'.ann = annAt (D.map Deco.placed) r →
      hasDirective o dir e'.ann .skip = true →
      (dir = true ∧ (annAt (D.map Deco.placed) r).asks o .skip = true) ∨
        (e.view.kind = .rCall ∧ ∃ n, o.skip n = true) := by
    intro e' h1 h2
    rw [h1] at h2
    have h3 : (dir && (annAt (D.map Deco.placed) r).asks o .skip) = true := h2
    rw [Bool.and_eq_true] at h3
    exact .inl h3
  have ha := annotate_ann (D.map Deco.placed) e r
  cases e with
  | call a k f aa l items t =>
    cases k with
    | call =>
      simp only [Expr.annotate, suppressed, Bool.or_eq_true] at h
      rcases h with h | h
      · exact key _ ha h
      · refine .inr ⟨rfl, ?_⟩
        unfold inSetting at h
        split at h
        · exact ⟨_, h⟩
        · cases h
    | subset => exact key _ ha h
    | subset2 => exact key _ ha h
  | _ => exact key _ ha h

theorem kept_ok (hD : ∀ d ∈ D, ∃ s, d.Sound X s) (ht : Spared o X D) {dir chain : Bool} {e : Expr} {r : Ref}
    (hn : Node X D r e.view) (hp : dir = true → Tall X r)
    (h : keptAt o dir chain (e.annotate (D.map Deco.placed) r) = true) :
    VerbOk (e.annotate (D.map Deco.placed) r).ann (e.annotate (D.map Deco.placed) r).tokens
      (e.annotate (D.map Deco.placed) r).comments := by
  rw [annotate_ann, annotate_tokens, annotate_comments, ← view_tokens]
  obtain ⟨D1, D2, hs⟩ := hn.split
  have hk := kept_asked h
  refine verb_ok hD hn.at_ hs ?_ (late_of ht hn (hk.imp And.right id))
  rcases hk with ⟨hd, -⟩ | ⟨hk, -⟩
  · exact .inr (hp hd)
  · refine .inl ?_
    rw [hk]
    decide

theorem keptOr_of {dir chain : Bool} {e : Expr} {P : Prop}
    (h1 : keptAt o dir chain e = true → VerbOk e.ann e.tokens e.comments) (h2 : P) :
    KeptOr o dir chain e P := by
  unfold KeptOr
  split
  · rename_i h; exact h1 h
  · exact h2

theorem directive_asked {a : Ann} {dir : Bool} {r : Ref} (ha : a = annAt (D.map Deco.placed) r)
    (h : hasDirective o dir a .table = true) : TableAsked o D := by
  unfold hasDirective at h
  simp only [Bool.and_eq_true, List.any_eq_true, beq_iff_eq] at h
  obtain ⟨-, c, hc, h⟩ := h
  rw [ha, annAt_eq] at hc
  obtain ⟨d, hd, rfl⟩ := List.mem_map.1 hc
  exact .inr ⟨d, (mem_attachedTo.1 hd).1, h⟩

theorem setting_asked {f : Expr} (h : inSetting o.table f = true) : TableAsked o D := by
  unfold inSetting at h
  split at h
  · exact .inl ⟨_, h⟩
  · cases h

theorem not_headKind {k : Kind} (h1 : k ≠ .rForStatement) (h2 : k ≠ .rWhileStatement)
    (h3 : k ≠ .rRepeatStatement) (h4 : k ≠ .rFunctionDefinition) (h5 : k ≠ .rIfStatement)
    (h6 : k ≠ .rElseClause) : ¬ headKind k := by
  rintro (h | h | h | h | h | h)
  · exact h1 h
  · exact h2 h
  · exact h3 h
  · exact h4 h
  · exact h5 h
  · exact h6 h

theorem args_not_head (k : CallKind) : ¬ headKind k.args := by
  cases k <;> exact not_headKind (by decide) (by decide) (by decide) (by decide) (by decide) (by decide)

theorem braced_not_head : ¬ headKind .rBracedExpressions :=
  not_headKind (by decide) (by decide) (by decide) (by decide) (by decide) (by decide)

theorem operator_not_head : ¬ headKind .rBinaryExpression :=
  not_headKind (by decide) (by decide) (by decide) (by decide) (by decide) (by decide)

theorem root_not_head : ¬ headKind .rRoot :=
  not_headKind (by decide) (by decide) (by decide) (by decide) (by decide) (by decide)

theorem no_dir {p : Prop} : false = true → p := fun h => by cases h

theorem arg_ok (hD : ∀ d ∈ D, ∃ s, d.Sound X s) (ht : Spared o X D) {dir call : Bool} {x : Arg} {r : Ref}
    (hn : Node X D r (x.view call)) (hk : (x.view call).kind = if call then .rArgument else .rParameter)
    (h : hasDirective o dir (annAt (D.map Deco.placed) r) .skip = true) :
    VerbOk (annAt (D.map Deco.placed) r) (x.annotate (D.map Deco.placed) r).tokens
      (x.annotate (D.map Deco.placed) r).comments := by
  rw [annotate_argTokens, annotate_arg _ call, ← arg_tokens call]
  obtain ⟨D1, D2, hs⟩ := hn.split
  have h3 : (dir && (annAt (D.map Deco.placed) r).asks o .skip) = true := h
  rw [Bool.and_eq_true] at h3
  refine verb_ok hD hn.at_ hs (.inl ?_) (late_of ht hn (.inl h3.2))
  rw [hk]
  exact arg_kind call

mutual
theorem verbs_annotate (hD : ∀ d ∈ D, ∃ s, d.Sound X s) (ht : Spared o X D) : (e : Expr) → (r : Ref) →
    (dir chain : Bool) → (tb : Option Bool) → Node X D r e.view → (dir = true → Tall X r) →
    (tb = some true → TableAsked o D) → (tb ≠ some false) →
    Verbs o dir chain tb (e.annotate (D.map Deco.placed) r)
  | .atom a k t, r, dir, chain, tb, hn, hp, _, _ =>
    keptOr_of (kept_ok hD ht (e := .atom a k t) hn hp) trivial
  | .str a p c l, r, dir, chain, tb, hn, hp, _, _ =>
    keptOr_of (kept_ok hD ht (e := .str a p c l) hn hp) trivial
  | .paren a l e t, r, dir, chain, tb, hn, hp, _, _ =>
    keptOr_of (kept_ok hD ht (e := .paren a l e t) hn hp)
      (verbs_annotate hD ht e _ false false none (hn.child rfl) no_dir (fun h => by cases h)
        (fun h => by cases h))
  | .braced a l es t, r, dir, chain, tb, hn, hp, _, _ =>
    keptOr_of (kept_ok hD ht (e := .braced a l es t) hn hp)
      (verbs_annotates hD ht es t r _ 1 (fun i y hi => ⟨hn.child hi, hn.tall braced_not_head i⟩) Parts.At.self.tok)
  | .unary a p e, r, dir, chain, tb, hn, hp, _, _ =>
    keptOr_of (kept_ok hD ht (e := .unary a p e) hn hp)
      (verbs_annotate hD ht e _ false false none (hn.child rfl) no_dir (fun h => by cases h)
        (fun h => by cases h))
  | .binary a x p y, r, dir, chain, tb, hn, hp, _, _ =>
    have hb : ¬ headKind (Expr.binary a x p y).view.kind := operator_not_head
    keptOr_of (kept_ok hD ht (e := .binary a x p y) hn hp)
      ⟨verbs_annotate hD ht x _ true _ none (hn.child rfl) (fun _ => hn.tall hb 0)
          (fun h => by cases h) (fun h => by cases h),
        verbs_annotate hD ht y _ true false _ (hn.child rfl) (fun _ => hn.tall hb 2)
          (fun h => by
            split at h
            · rename_i h'
              rw [Bool.and_eq_true] at h'
              exact directive_asked rfl h'.2
            · cases h)
          (fun h => by split at h <;> cases h)⟩
  | .sel a k x p y, r, dir, chain, tb, hn, hp, _, _ =>
    keptOr_of (kept_ok hD ht (e := .sel a k x p y) hn hp)
      ⟨verbs_annotate hD ht x _ false false none (hn.child rfl) no_dir (fun h => by cases h)
          (fun h => by cases h),
        verbs_annotate hD ht y _ false false none (hn.child rfl) no_dir (fun h => by cases h)
          (fun h => by cases h)⟩
  | .call a k f aa l items t, r, dir, chain, tb, hn, hp, htb, htb' => by
    have hc : Node X D (r ++ [1]) (.node k.args (.tok l (items.view true t))) := hn.child rfl
    refine keptOr_of (kept_ok hD ht (e := .call a k f aa l items t) hn hp)
      ⟨verbs_annotate hD ht f _ false false none (hn.child rfl) no_dir (fun h => by cases h)
        (fun h => by cases h),
      verbs_items hD ht true true items t _ _ 1 hc Parts.At.self.tok, ?_⟩
    intro h _
    have hk : k = .call := by
      unfold tableAt isTable at h
      rw [Bool.and_eq_true, beq_iff_eq] at h
      exact h.1
    have hask : TableAsked o D := by
      unfold tableAt isTable at h
      rw [Bool.and_eq_true] at h
      have h := h.2
      cases tb with
      | some b =>
        cases b with
        | false => exact absurd rfl htb'
        | true => exact htb rfl
      | none =>
        have h : (hasDirective o dir (annAt (D.map Deco.placed) r) .table ||
          inSetting o.table (f.annotate (D.map Deco.placed) (r ++ [0]))) = true := h
        rw [Bool.or_eq_true] at h
        rcases h with h | h
        · exact directive_asked rfl h
        · exact setting_asked h
    subst hk
    have hlead : ∀ d ∈ D, placeComment d ≠ ⟨.leading, r ++ [1]⟩ := by
      intro d hd hpl
      refine ht.table hask d hd (by rw [hpl])
        (.node .rCallArguments (.tok l (items.view true t))) ?_ rfl
      rw [hpl]
      exact hc.at_
    refine ⟨attached_nil hlead, ?_⟩
    obtain ⟨D1, D2, hs⟩ := hc.split
    have := verb_ok hD hc.at_ hs (.inl (by simp only [View.kind, CallKind.args]; decide))
      (fun d hd hpl => absurd hpl (hlead d hd))
    rw [View.refs, commentsAt_cons, View.tokens, Parts.tokens, items_tokens, Parts.refs,
      ← annotate_items _ true t items] at this
    rw [annotate_itemTokens]
    exact this
  | .func a kw pa l items t b, r, dir, chain, tb, hn, hp, _, _ => by
    have hc : Node X D (r ++ [1]) (.node .rParameters (.tok l (items.view false t))) := hn.child rfl
    exact keptOr_of (kept_ok hD ht (e := .func a kw pa l items t b) hn hp)
      ⟨verbs_items hD ht false false items t _ _ 1 hc Parts.At.self.tok,
        verbs_annotate hD ht b _ false false none (hn.child rfl) no_dir (fun h => by cases h)
          (fun h => by cases h)⟩
  | .ite a kw l c t b, r, dir, chain, tb, hn, hp, _, _ =>
    keptOr_of (kept_ok hD ht (e := .ite a kw l c t b) hn hp)
      ⟨verbs_annotate hD ht c _ false false none (hn.child rfl) no_dir (fun h => by cases h)
          (fun h => by cases h),
        verbs_annotate hD ht b _ false false none (hn.child rfl) no_dir (fun h => by cases h)
          (fun h => by cases h)⟩
  | .itee a kw l c t b ea el e, r, dir, chain, tb, hn, hp, _, _ => by
    have hc : Node X D (r ++ [5]) (.node .rElseClause (.tok el (.sub e.view .nil))) := hn.child rfl
    have he : Node X D (r ++ [5, 1]) e.view := by
      have := hc.child (i := 1) (y := e.view) rfl
      simpa using this
    exact keptOr_of (kept_ok hD ht (e := .itee a kw l c t b ea el e) hn hp)
      ⟨verbs_annotate hD ht c _ false false none (hn.child rfl) no_dir (fun h => by cases h)
          (fun h => by cases h),
        verbs_annotate hD ht b _ false false none (hn.child rfl) no_dir (fun h => by cases h)
          (fun h => by cases h),
        verbs_annotate hD ht e _ false false none he no_dir (fun h => by cases h)
          (fun h => by cases h)⟩
  | .for_ a kw l v i s t b, r, dir, chain, tb, hn, hp, _, _ =>
    keptOr_of (kept_ok hD ht (e := .for_ a kw l v i s t b) hn hp)
      ⟨verbs_annotate hD ht v _ false false none (hn.child rfl) no_dir (fun h => by cases h)
          (fun h => by cases h),
        verbs_annotate hD ht s _ false false none (hn.child rfl) no_dir (fun h => by cases h)
          (fun h => by cases h),
        verbs_annotate hD ht b _ false false none (hn.child rfl) no_dir (fun h => by cases h)
          (fun h => by cases h)⟩
  | .while_ a kw l c t b, r, dir, chain, tb, hn, hp, _, _ =>
    keptOr_of (kept_ok hD ht (e := .while_ a kw l c t b) hn hp)
      ⟨verbs_annotate hD ht c _ false false none (hn.child rfl) no_dir (fun h => by cases h)
          (fun h => by cases h),
        verbs_annotate hD ht b _ false false none (hn.child rfl) no_dir (fun h => by cases h)
          (fun h => by cases h)⟩
  | .repeat_ a kw b, r, dir, chain, tb, hn, hp, _, _ =>
    keptOr_of (kept_ok hD ht (e := .repeat_ a kw b) hn hp)
      (verbs_annotate hD ht b _ false false none (hn.child rfl) no_dir (fun h => by cases h)
          (fun h => by cases h))
theorem verbs_annotates (hD : ∀ d ∈ D, ∃ s, d.Sound X s) (ht : Spared o X D) : (es : Exprs) → (t : Token) →
    (r : Ref) → (z : View) → (i : Nat) →
    (∀ i y, z.parts.slot i = some y → Node X D (r ++ [i]) y ∧ Tall X (r ++ [i])) → (es.view t).At z i →
    VerbsL o (es.annotate (D.map Deco.placed) r i)
  | .nil, _, _, _, _, _, _ => by simp only [Exprs.annotate, VerbsL]
  | .cons e es, t, r, z, i, h, ha => by
    simp only [Exprs.annotate, VerbsL]
    rw [Exprs.view] at ha
    exact ⟨verbs_annotate hD ht e _ true false none (h i _ ha.sub.1).1 (fun _ => (h i _ ha.sub.1).2)
        (fun h => by cases h) (fun h => by cases h),
      verbs_annotates hD ht es t r z (i + 1) h ha.sub.2⟩
theorem verbs_items (hD : ∀ d ∈ D, ∃ s, d.Sound X s) (ht : Spared o X D) (call dir : Bool) :
    (xs : Items) → (t : Token) →
    (r : Ref) → (z : View) → (i : Nat) → Node X D r z → (xs.view call t).At z i →
    VerbsI o dir (xs.annotate (D.map Deco.placed) r i)
  | .nil, _, _, _, _, _, _ => by simp only [Items.annotate, VerbsI]
  | .last x, t, r, z, i, h, ha => by
    simp only [Items.annotate, VerbsI]
    rw [Items.view] at ha
    exact verbs_arg hD ht call dir x _ (h.child ha.sub.1)
  | .cons x s xs, t, r, z, i, h, ha => by
    simp only [Items.annotate, VerbsI]
    rw [Items.view] at ha
    exact ⟨verbs_arg hD ht call dir x _ (h.child ha.sub.1),
      verbs_items hD ht call dir xs t r z (i + 2) h ha.sub.2.tok⟩
theorem verbs_arg (hD : ∀ d ∈ D, ∃ s, d.Sound X s) (ht : Spared o X D) (call dir : Bool) :
    (x : Arg) → (r : Ref) →
    Node X D r (x.view call) → VerbsA o dir (x.annotate (D.map Deco.placed) r)
  | .hole a, r, h => fun hd => arg_ok hD ht (x := .hole a) h rfl hd
  | .val a e, r, h =>
    ⟨fun hd => arg_ok hD ht (x := .val a e) h rfl hd,
      verbs_annotate hD ht e _ false false none (h.child rfl) no_dir (fun h => by cases h)
        (fun h => by cases h)⟩
  | .name a na n q, r, h => by
    have hc : Node X D (r ++ [0]) (.node .rArgumentNameClause (.sub n.view (.one q))) := h.child rfl
    have he : Node X D (r ++ [0, 0]) n.view := by
      have := hc.child (i := 0) (y := n.view) rfl
      simpa using this
    exact ⟨fun hd => arg_ok hD ht (x := .name a na n q) h rfl hd,
      verbs_annotate hD ht n _ false false none he no_dir (fun h => by cases h)
        (fun h => by cases h)⟩
  | .named a na n q e, r, h => by
    have hc : Node X D (r ++ [0]) (.node .rArgumentNameClause (.sub n.view (.one q))) := h.child rfl
    have he : Node X D (r ++ [0, 0]) n.view := by
      have := hc.child (i := 0) (y := n.view) rfl
      simpa using this
    exact ⟨fun hd => arg_ok hD ht (x := .named a na n q e) h rfl hd,
      verbs_annotate hD ht n _ false false none he no_dir (fun h => by cases h)
        (fun h => by cases h),
      verbs_annotate hD ht e _ false false none (h.child rfl) no_dir (fun h => by cases h)
        (fun h => by cases h)⟩
  | .pdef a n da q e, r, h => by
    have hc : Node X D (r ++ [1]) (.node .rParameterDefault (.tok q (.sub e.view .nil))) := h.child rfl
    have he : Node X D (r ++ [1, 1]) e.view := by
      have := hc.child (i := 1) (y := e.view) rfl
      simpa using this
    exact ⟨fun hd => arg_ok hD ht (x := .pdef a n da q e) h rfl hd,
      verbs_annotate hD ht n _ false false none (h.child rfl) no_dir (fun h => by cases h)
        (fun h => by cases h),
      verbs_annotate hD ht e _ false false none he no_dir (fun h => by cases h)
        (fun h => by cases h)⟩
end

/-- Everything that is kept in a file contains its comments once. -/
theorem verbs_root (x : Root) (ht : Spared o x.view (x.view.decos [] true)) : VerbsL o x.attach.es := by
  refine verbs_annotates (X := x.view) (view_sound fun _ => rfl) ht x.es x.eof [] x.view 0 ?_
    Parts.At.self
  intro i y hi
  refine ⟨⟨slot_nodeAt hi, Split.root hi⟩, ?_⟩
  intro w hw
  cases hw
  exact root_not_head

theorem proper_root (x : Root) : x.attach.es.Proper :=
  proper_annotates (X := x.view) (view_sound fun _ => rfl) x.es x.eof [] x.view 0 rfl Parts.At.self

end Verif.Format
