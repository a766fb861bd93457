import Verif.Spec.Comments

/-!
# Comments of a tree: none is left out, and where they are
-/

namespace Verif.Format
open Verif.Syntax

mutual
/-- Tokens of a tree. -/
def View.tokens : View → List Token
  | .node _ ps => ps.tokens
def Parts.tokens : Parts → List Token
  | .nil => []
  | .tok t ps => t :: ps.tokens
  | .sub x ps => x.tokens ++ ps.tokens
end

mutual
theorem view_tokens : (e : Expr) → e.view.tokens = e.tokens
  | .atom .. => rfl
  | .str _ o c l => by cases c <;> rfl
  | .paren _ l e r => by
    simp [Expr.view, View.tokens, Parts.tokens, Parts.one, Expr.tokens, view_tokens e]
  | .braced _ l es r => by
    simp [Expr.view, View.tokens, Parts.tokens, Expr.tokens, views_tokens es r]
  | .unary _ p e => by simp [Expr.view, View.tokens, Parts.tokens, Expr.tokens, view_tokens e]
  | .binary _ x p y => by
    simp [Expr.view, View.tokens, Parts.tokens, Expr.tokens, view_tokens x, view_tokens y]
  | .sel _ k x p y => by
    simp [Expr.view, View.tokens, Parts.tokens, Expr.tokens, view_tokens x, view_tokens y]
  | .call _ k f _ l items r => by
    simp [Expr.view, View.tokens, Parts.tokens, Expr.tokens, view_tokens f, items_tokens true r items]
  | .func _ kw _ l items r b => by
    simp [Expr.view, View.tokens, Parts.tokens, Expr.tokens, view_tokens b, items_tokens false r items]
  | .ite _ kw l c r t => by
    simp [Expr.view, View.tokens, Parts.tokens, Expr.tokens, view_tokens c, view_tokens t]
  | .itee _ kw l c r t _ el e => by
    simp [Expr.view, View.tokens, Parts.tokens, Expr.tokens, view_tokens c, view_tokens t,
      view_tokens e]
  | .for_ _ kw l v i s r b => by
    simp [Expr.view, View.tokens, Parts.tokens, Expr.tokens, view_tokens v, view_tokens s,
      view_tokens b]
  | .while_ _ kw l c r b => by
    simp [Expr.view, View.tokens, Parts.tokens, Expr.tokens, view_tokens c, view_tokens b]
  | .repeat_ _ kw b => by simp [Expr.view, View.tokens, Parts.tokens, Expr.tokens, view_tokens b]
theorem views_tokens : (es : Exprs) → (r : Token) → (es.view r).tokens = es.tokens ++ [r]
  | .nil, _ => rfl
  | .cons e es, r => by
    simp [Exprs.view, Parts.tokens, Exprs.tokens, view_tokens e, views_tokens es r]
theorem items_tokens (call : Bool) (r : Token) : (xs : Items) →
    (xs.view call r).tokens = xs.tokens ++ [r]
  | .nil => rfl
  | .last x => by simp [Items.view, Parts.tokens, Parts.one, Items.tokens, arg_tokens call x]
  | .cons x s xs => by
    simp [Items.view, Parts.tokens, Items.tokens, arg_tokens call x, items_tokens call r xs]
theorem arg_tokens (call : Bool) : (x : Arg) → (x.view call).tokens = x.tokens
  | .hole _ => rfl
  | .val _ e => by simp [Arg.view, View.tokens, Parts.tokens, Arg.tokens, view_tokens e]
  | .name _ _ n q => by
    simp [Arg.view, View.tokens, Parts.tokens, Parts.one, Arg.tokens, view_tokens n]
  | .named _ _ n q e => by
    simp [Arg.view, View.tokens, Parts.tokens, Parts.one, Arg.tokens, view_tokens n, view_tokens e]
  | .pdef _ n _ q e => by
    simp [Arg.view, View.tokens, Parts.tokens, Arg.tokens, view_tokens n, view_tokens e]
end

mutual
theorem view_first : (x : View) → x.first = x.tokens.head?
  | .node _ ps => by rw [View.first, View.tokens, parts_first ps]
theorem parts_first : (ps : Parts) → ps.first = ps.tokens.head?
  | .nil => rfl
  | .tok t ps => rfl
  | .sub x ps => by
    rw [Parts.first, Parts.tokens, List.head?_append, view_first x, parts_first ps]
    cases x.tokens.head? <;> rfl
end

mutual
theorem view_last : (x : View) → x.last = x.tokens.getLast?
  | .node _ ps => by rw [View.last, View.tokens, parts_last ps]
theorem parts_last : (ps : Parts) → ps.last = ps.tokens.getLast?
  | .nil => rfl
  | .tok t ps => by
    rw [Parts.last, Parts.tokens, List.getLast?_cons, parts_last ps]
    cases ps.tokens.getLast? <;> rfl
  | .sub x ps => by
    rw [Parts.last, Parts.tokens, List.getLast?_append, view_last x, parts_last ps]
    cases ps.tokens.getLast? <;> rfl
end

/-! ## Texts -/

/-- The trivia before tokens; before the first one only if `inside`. -/
def gapsOf (inside : Bool) (prev : Option Token) : List Token → List Piece
  | [] => []
  | t :: ts => (if inside then trailingOf prev ++ t.leading else []) ++ gapsOf true (some t) ts

theorem gapsOf_inner : (ts : List Token) → gapsOf false none ts = innerTrivia ts
  | [] => rfl
  | [t] => rfl
  | t :: u :: ts => by
    have := gapsOf_inner (u :: ts)
    simp only [gapsOf, innerTrivia, if_true, Bool.false_eq_true, if_false, List.nil_append,
      trailingOf] at *
    rw [this]

theorem gapsOf_append (inside : Bool) (prev : Option Token) (xs ys : List Token) :
    gapsOf inside prev (xs ++ ys) = gapsOf inside prev xs ++
      gapsOf (inside || xs.head?.isSome) (match xs.getLast? with | some t => some t | none => prev) ys := by
  induction xs generalizing inside prev with
  | nil => simp [gapsOf]
  | cons t xs ih =>
    simp only [List.cons_append, gapsOf, List.append_assoc, ih, Bool.true_or, List.head?_cons,
      Option.isSome_some, Bool.or_true]
    cases xs with
    | nil => simp [gapsOf]
    | cons u us => simp [List.getLast?_cons_cons, List.getLast?_cons]

theorem commentTexts_append (x y : List Piece) :
    commentTexts (x ++ y) = commentTexts x ++ commentTexts y := by
  simp [commentTexts]

theorem scan_texts (ps : List Piece) : ∀ m n own,
    (scan m n own ps).map Scanned.text = commentTexts ps := by
  induction ps with
  | nil => intros; rfl
  | cons p ps ih =>
    intro m n own
    cases h : p.kind with
    | newline => simp only [scan, h]; rw [ih]; simp [commentTexts, h]
    | whitespace => simp only [scan, h]; rw [ih]; simp [commentTexts, h]
    | comment =>
      simp only [scan, h, List.map_cons]
      rw [ih]
      simp [commentTexts, h]

theorem gapDecos_texts (x : View) (r : Ref) (g : Nat) (p f : Option (Nat × View)) (prev : Option Token)
    (u : Token) : (gapDecos x r g p f prev u).map Deco.text =
      commentTexts (trailingOf prev ++ u.leading) := by
  unfold gapDecos
  simp only [List.map_map]
  exact scan_texts _ _ _ _

mutual
theorem view_decos : (x : View) → (r : Ref) → (start : Bool) →
    (x.decos r start).map Deco.text = commentTexts (gapsOf start none x.tokens)
  | .node k ps, r, start => by
    rw [View.decos, View.tokens]
    exact parts_decos ps _ _ _ _ _ _
theorem parts_decos : (ps : Parts) → (x : View) → (r : Ref) → (i : Nat) →
    (prec : Option (Nat × View)) → (inside : Bool) → (prev : Option Token) →
    (ps.decos x r i prec inside prev).map Deco.text = commentTexts (gapsOf inside prev ps.tokens)
  | .nil, _, _, _, _, _, _ => rfl
  | .tok t ps, x, r, i, prec, inside, prev => by
    simp only [Parts.decos, Parts.tokens, gapsOf, List.map_append, commentTexts_append,
      parts_decos ps]
    congr 1
    cases inside
    · rfl
    · exact gapDecos_texts ..
  | .sub y ps, x, r, i, prec, inside, prev => by
    simp only [Parts.decos, Parts.tokens, gapsOf_append, List.map_append, commentTexts_append,
      parts_decos ps, view_decos y, subDecos, View.lastOr, view_first y, view_last y]
    congr 1
    cases ht : y.tokens with
    | nil => rfl
    | cons t ts =>
      simp only [List.head?_cons, gapsOf]
      cases inside
      · rfl
      · simp only [if_true, gapDecos_texts, commentTexts_append, Bool.false_eq_true, if_false]
        simp [commentTexts]
end

/-- The comments of a file are found, in source order. -/
theorem root_decos (x : Root) : (x.view.decos [] true).map Deco.text = x.sourceComments := by
  rw [view_decos, Root.view, View.tokens, views_tokens]
  have key : ∀ (ts : List Token) (prev : Option Token), gapsOf true prev (ts ++ [x.eof]) =
      trailingOf prev ++ (ts.flatMap (fun t => t.leading ++ t.trailing) ++ x.eof.leading) := by
    intro ts
    induction ts with
    | nil => intro prev; simp [gapsOf]
    | cons t ts ih => intro prev; simp [gapsOf, ih, trailingOf]
  rw [key]
  rfl

/-! ## Positions -/

theorem nodeAt_append (q q' : Ref) : ∀ (x : View), x.nodeAt (q ++ q') =
    match x.nodeAt q with | some y => y.nodeAt q' | none => none := by
  induction q with
  | nil => intro x; rfl
  | cons i q ih =>
    intro x
    simp only [List.cons_append, View.nodeAt]
    cases x.parts.slot i with
    | none => rfl
    | some y => exact ih y

/-- Number of children. -/
def Parts.length : Parts → Nat
  | .nil => 0
  | .tok _ ps => ps.length + 1
  | .sub _ ps => ps.length + 1

/-- The first child node at or after position `n`; the children start at `i`. -/
def Parts.subFrom (n : Nat) (i : Nat) : Parts → Option (Nat × View)
  | .nil => none
  | .tok _ ps => ps.subFrom n (i + 1)
  | .sub x ps => if n ≤ i then some (i, x) else ps.subFrom n (i + 1)

theorem firstSub_subFrom : (ps : Parts) → (n i : Nat) → n ≤ i → ps.firstSub i = ps.subFrom n i
  | .nil, _, _, _ => rfl
  | .tok _ ps, n, i, h => firstSub_subFrom ps n (i + 1) (by omega)
  | .sub x ps, n, i, h => by rw [Parts.firstSub, Parts.subFrom, if_pos h]

theorem prevSub_none : (ps : Parts) → (n i : Nat) → n ≤ i → ps.prevSub n i = none
  | .nil, _, _, _ => rfl
  | .tok _ ps, n, i, h => by rw [Parts.prevSub, if_neg (by omega)]
  | .sub _ ps, n, i, h => by rw [Parts.prevSub, if_neg (by omega)]

theorem prevSub_spec : (ps : Parts) → (n i j : Nat) → (y : View) → ps.prevSub n i = some (j, y) →
    i ≤ j ∧ j < n ∧ ps.slot (j - i) = some y
  | .nil, _, _, _, _, h => by cases h
  | .tok _ ps, n, i, j, y, h => by
    rw [Parts.prevSub] at h
    split at h
    · obtain ⟨h1, h2, h3⟩ := prevSub_spec ps n (i + 1) j y h
      refine ⟨by omega, h2, ?_⟩
      rw [show j - i = (j - (i + 1)) + 1 by omega]
      exact h3
    · cases h
  | .sub x ps, n, i, j, y, h => by
    rw [Parts.prevSub] at h
    split at h
    · rename_i hi
      split at h
      · rename_i z hz
        cases h
        obtain ⟨h1, h2, h3⟩ := prevSub_spec ps n (i + 1) j y hz
        refine ⟨by omega, h2, ?_⟩
        rw [show j - i = (j - (i + 1)) + 1 by omega]
        exact h3
      · cases h
        exact ⟨Nat.le_refl _, hi, by rw [Nat.sub_self]; rfl⟩
    · cases h

theorem subFrom_spec : (ps : Parts) → (n i j : Nat) → (y : View) → ps.subFrom n i = some (j, y) →
    i ≤ j ∧ n ≤ j ∧ ps.slot (j - i) = some y
  | .nil, _, _, _, _, h => by cases h
  | .tok _ ps, n, i, j, y, h => by
    rw [Parts.subFrom] at h
    obtain ⟨h1, h2, h3⟩ := subFrom_spec ps n (i + 1) j y h
    refine ⟨by omega, h2, ?_⟩
    rw [show j - i = (j - (i + 1)) + 1 by omega]
    exact h3
  | .sub x ps, n, i, j, y, h => by
    rw [Parts.subFrom] at h
    split at h
    · cases h
      exact ⟨Nat.le_refl _, by assumption, by rw [Nat.sub_self]; rfl⟩
    · obtain ⟨h1, h2, h3⟩ := subFrom_spec ps n (i + 1) j y h
      refine ⟨by omega, h2, ?_⟩
      rw [show j - i = (j - (i + 1)) + 1 by omega]
      exact h3

/-- Without child nodes before and after a position there are none. -/
theorem noSubs : (ps : Parts) → (n i : Nat) → ps.prevSub n i = none → ps.subFrom n i = none →
    ∀ j, ps.slot j = none
  | .nil, _, _, _, _ => fun j => by simp [Parts.slot]
  | .tok _ ps, n, i, h1, h2 => by
    intro j
    cases j with
    | zero => rfl
    | succ j =>
      refine noSubs ps n (i + 1) ?_ h2 j
      rw [Parts.prevSub] at h1
      split at h1
      · exact h1
      · exact prevSub_none _ _ _ (by omega)
  | .sub x ps, n, i, h1, h2 => by
    rw [Parts.prevSub] at h1
    rw [Parts.subFrom] at h2
    split at h2
    · cases h2
    · rw [if_pos (by omega)] at h1
      split at h1 <;> cases h1

/-- What is known about a comment. -/
structure Deco.Ok (d : Deco) : Prop where
  gap_lt : d.gap < d.enclosing.parts.length
  gap_pos : d.gap = 0 → d.enclosing.kind = .rRoot
  preceding : d.preceding = d.enclosing.parts.prevSub d.gap 0
  following : d.following = d.enclosing.parts.subFrom d.gap 0

/-- The comment is before (`true`) or after the child `j` of its enclosing node `r`, or inside an earlier
or later child. -/
def Deco.Side (before : Bool) (r : Ref) (j : Nat) (d : Deco) : Prop :=
  (d.ref = r ∧ decide (d.gap ≤ j) = before) ∨
    ∃ k q, d.ref = r ++ k :: q ∧ k ≠ j ∧ decide (k < j) = before

theorem gapDecos_mem {x : View} {r : Ref} {g : Nat} {p f : Option (Nat × View)} {prev : Option Token}
    {u : Token} {d : Deco} (h : d ∈ gapDecos x r g p f prev u) :
    d.ref = r ∧ d.enclosing = x ∧ d.gap = g ∧ d.preceding = p ∧ d.following = f := by
  unfold gapDecos at h
  simp only [List.mem_map] at h
  obtain ⟨c, -, rfl⟩ := h
  exact ⟨rfl, rfl, rfl, rfl, rfl⟩

mutual
theorem view_ok : (x : View) → (r : Ref) → (start : Bool) → (start = true → x.kind = .rRoot) →
    ∀ d ∈ x.decos r start, ∃ q, d.ref = r ++ q ∧ x.nodeAt q = some d.enclosing ∧ d.Ok
  | .node k ps, r, start, hs => by
    intro d hd
    rw [View.decos] at hd
    rcases parts_ok ps _ _ _ _ _ _ d hd with ⟨h1, h2, h3, h4, h5, h6, h7⟩ | ⟨j, y, q, h1, h2, h3, h4⟩
    · refine ⟨[], by simp [h1], by rw [h2]; rfl, ?_, ?_, ?_, ?_⟩
      · rw [h2]; simpa [View.parts] using h4
      · intro h0
        rw [h2]
        apply hs
        cases start with
        | true => rfl
        | false => have := h5 rfl; omega
      · rw [h6, h2]
        simp only [View.parts]
        cases ps.prevSub d.gap 0 <;> rfl
      · rw [h7, h2]; rfl
    · refine ⟨j :: q, by simpa using h2, ?_, h4⟩
      simp only [View.nodeAt, View.parts, h1]
      exact h3
theorem parts_ok : (ps : Parts) → (x : View) → (r : Ref) → (i : Nat) →
    (prec : Option (Nat × View)) → (inside : Bool) → (prev : Option Token) →
    ∀ d ∈ ps.decos x r i prec inside prev,
      (d.ref = r ∧ d.enclosing = x ∧ i ≤ d.gap ∧ d.gap < i + ps.length ∧ (inside = false → i < d.gap) ∧
        d.preceding = (match ps.prevSub d.gap i with | some z => some z | none => prec) ∧
        d.following = ps.subFrom d.gap i) ∨
      ∃ j y q, ps.slot j = some y ∧ d.ref = r ++ (i + j) :: q ∧ y.nodeAt q = some d.enclosing ∧ d.Ok
  | .nil, _, _, _, _, _, _ => fun d hd => by cases hd
  | .tok t ps, x, r, i, prec, inside, prev => by
    intro d hd
    rw [Parts.decos, List.mem_append] at hd
    rcases hd with hd | hd
    · cases inside with
      | false => cases hd
      | true =>
        obtain ⟨h1, h2, h3, h4, h5⟩ := gapDecos_mem hd
        refine .inl ⟨h1, h2, by omega, by rw [Parts.length]; omega, (fun h => by cases h), ?_, ?_⟩
        · rw [h4, h3, prevSub_none _ _ _ (Nat.le_refl _)]
        · rw [h5, h3, Parts.subFrom]
          exact firstSub_subFrom _ _ _ (by omega)
    · rcases parts_ok ps _ _ _ _ _ _ d hd with ⟨h1, h2, h3, h4, h5, h6, h7⟩ |
        ⟨j, y, q, h1, h2, h3, h4⟩
      · refine .inl ⟨h1, h2, by omega, by rw [Parts.length]; omega, fun _ => by omega, ?_, h7⟩
        rw [h6, Parts.prevSub, if_pos (by omega)]
      · refine .inr ⟨j + 1, y, q, h1, ?_, h3, h4⟩
        rw [h2]
        congr 2
        omega
  | .sub y ps, x, r, i, prec, inside, prev => by
    intro d hd
    rw [Parts.decos, List.mem_append, List.mem_append] at hd
    rcases hd with (hd | hd) | hd
    · unfold subDecos at hd
      cases inside with
      | false => split at hd <;> cases hd
      | true =>
        have hd : ∃ t, d ∈ gapDecos x r i prec (some (i, y)) prev t := by
          split at hd
          · exact ⟨_, hd⟩
          · cases hd
        obtain ⟨t, hd⟩ := hd
        obtain ⟨h1, h2, h3, h4, h5⟩ := gapDecos_mem hd
        refine .inl ⟨h1, h2, by omega, by rw [Parts.length]; omega, (fun h => by cases h), ?_, ?_⟩
        · rw [h4, h3, prevSub_none _ _ _ (Nat.le_refl _)]
        · rw [h5, h3, Parts.subFrom, if_pos (Nat.le_refl _)]
    · obtain ⟨q, h1, h2, h3⟩ := view_ok y (r ++ [i]) false (fun h => by cases h) d hd
      exact .inr ⟨0, y, q, rfl, by simp [h1], h2, h3⟩
    · rcases parts_ok ps _ _ _ _ _ _ d hd with ⟨h1, h2, h3, h4, h5, h6, h7⟩ |
        ⟨j, z, q, h1, h2, h3, h4⟩
      · refine .inl ⟨h1, h2, by omega, by rw [Parts.length]; omega, fun _ => by omega, ?_, ?_⟩
        · rw [h6, Parts.prevSub, if_pos (by omega)]
          cases ps.prevSub d.gap (i + 1) <;> rfl
        · rw [h7, Parts.subFrom, if_neg (by omega)]
      · refine .inr ⟨j + 1, z, q, h1, ?_, h3, h4⟩
        rw [h2]
        congr 2
        omega
end

theorem parts_later {ps : Parts} {x : View} {r : Ref} {i : Nat} {prec : Option (Nat × View)}
    {inside : Bool} {prev : Option Token} {d : Deco} (h : d ∈ ps.decos x r i prec inside prev) {j : Nat}
    (hj : j < i) : d.Side false r j := by
  rcases parts_ok ps _ _ _ _ _ _ d h with ⟨h1, h2, h3, -⟩ | ⟨k, y, q, h1, h2, -⟩
  · exact .inl ⟨h1, by simp; omega⟩
  · exact .inr ⟨i + k, q, h2, by omega, by simp; omega⟩

/-- The comments of a node are those before a child, those in the child, and those after it. -/
theorem parts_split : (ps : Parts) → (x : View) → (r : Ref) → (i : Nat) →
    (prec : Option (Nat × View)) → (inside : Bool) → (prev : Option Token) → (j : Nat) → (y : View) →
    ps.slot j = some y → ∃ A B, ps.decos x r i prec inside prev = A ++ y.decos (r ++ [i + j]) false ++ B ∧
      (∀ d ∈ A, d.Side true r (i + j)) ∧ (∀ d ∈ B, d.Side false r (i + j))
  | .nil, _, _, _, _, _, _, j, _, h => by simp [Parts.slot] at h
  | .tok t ps, x, r, i, prec, inside, prev, j, y, h => by
    cases j with
    | zero => cases h
    | succ j =>
      obtain ⟨A, B, h1, h2, h3⟩ := parts_split ps x r (i + 1) prec true (some t) j y h
      rw [show i + 1 + j = i + (j + 1) by omega] at h1 h2 h3
      refine ⟨(if inside then gapDecos x r i prec (ps.firstSub (i + 1)) prev t else []) ++ A, B,
        by rw [Parts.decos, h1]; simp only [List.append_assoc], ?_, h3⟩
      intro d hd
      rcases List.mem_append.1 hd with hd | hd
      · cases inside with
        | false => cases hd
        | true =>
          obtain ⟨k1, -, k3, -⟩ := gapDecos_mem hd
          exact .inl ⟨k1, by simp; omega⟩
      · exact h2 d hd
  | .sub z ps, x, r, i, prec, inside, prev, j, y, h => by
    have hg : ∀ d ∈ subDecos x r i prec inside prev z, d.ref = r ∧ d.gap = i := by
      intro d hd
      unfold subDecos at hd
      split at hd
      · split at hd
        · obtain ⟨k1, -, k3, -⟩ := gapDecos_mem hd
          exact ⟨k1, k3⟩
        · cases hd
      · cases hd
    cases j with
    | zero =>
      cases h
      refine ⟨_, _, rfl, ?_, fun d hd => parts_later hd (by omega)⟩
      intro d hd
      obtain ⟨k1, k2⟩ := hg d hd
      exact .inl ⟨k1, by simp; omega⟩
    | succ j =>
      obtain ⟨A, B, h1, h2, h3⟩ := parts_split ps x r (i + 1) (some (i, z)) (inside || z.first.isSome)
        (z.lastOr prev) j y h
      rw [show i + 1 + j = i + (j + 1) by omega] at h1 h2 h3
      refine ⟨subDecos x r i prec inside prev z ++ z.decos (r ++ [i]) false ++ A, B,
        by rw [Parts.decos, h1]; simp only [List.append_assoc], ?_, h3⟩
      intro d hd
      rcases List.mem_append.1 hd with hd | hd
      · rcases List.mem_append.1 hd with hd | hd
        · obtain ⟨k1, k2⟩ := hg d hd
          exact .inl ⟨k1, by simp; omega⟩
        · obtain ⟨q, k1, -⟩ := view_ok z (r ++ [i]) false (fun h => by cases h) d hd
          exact .inr ⟨i, q, by simp [k1], by omega, by simp⟩
      · exact h2 d hd

/-- The comments of a tree, the node `r` in it with its comments, those before and those after it. -/
structure Split (D : List Deco) (r : Ref) (x : View) (D1 D2 : List Deco) : Prop where
  eq : D = D1 ++ x.decos r false ++ D2
  before : ∀ d ∈ D1, ¬ r <+: d.ref ∧ Ref.le (d.ref ++ [d.gap]) r = true
  after : ∀ d ∈ D2, ¬ r <+: d.ref ∧ Ref.le (d.ref ++ [d.gap]) r = false

theorem Ref.le_append (r a b : Ref) : Ref.le (r ++ a) (r ++ b) = Ref.le a b := by
  induction r with
  | nil => rfl
  | cons i r ih => simp [Ref.le, ih]

theorem prefix_side {b : Bool} {r : Ref} {j : Nat} {d : Deco} (h : d.Side b r j) :
    ¬ (r ++ [j]) <+: d.ref ∧ Ref.le (d.ref ++ [d.gap]) (r ++ [j]) = b := by
  rcases h with ⟨h1, h2⟩ | ⟨k, q, h1, h2, h3⟩
  · constructor
    · rintro ⟨s, hs⟩
      have := congrArg List.length hs
      rw [h1] at this
      simp at this
    · rw [h1, Ref.le_append, ← h2]
      by_cases hg : d.gap ≤ j
      · simp only [Ref.le, hg, decide_true, Bool.or_eq_true, decide_eq_true_eq, Bool.and_true,
          beq_iff_eq]
        omega
      · have : ¬ d.gap < j := by omega
        have : d.gap ≠ j := by omega
        simp [Ref.le, *]
  · constructor
    · rintro ⟨s, hs⟩
      rw [h1, List.append_assoc] at hs
      have := List.append_cancel_left hs
      simp at this
      exact h2 this.1.symm
    · rw [h1, List.append_assoc, Ref.le_append, ← h3]
      simp [Ref.le, h2]

theorem Split.child {D : List Deco} {r : Ref} {x y : View} {D1 D2 : List Deco} {j : Nat}
    (h : Split D r x D1 D2) (hj : x.parts.slot j = some y) :
    ∃ D1' D2', Split D (r ++ [j]) y D1' D2' := by
  cases x with
  | node k ps =>
    obtain ⟨A, B, h1, h2, h3⟩ := parts_split ps (.node k ps) r 0 none false none j y hj
    rw [Nat.zero_add] at h1 h2 h3
    have pre : ∀ d ∈ D1 ++ D2, ¬ (r ++ [j]) <+: d.ref := by
      intro d hd hp
      have hr : r <+: d.ref := (List.prefix_append _ _).trans hp
      rcases List.mem_append.1 hd with hd | hd
      · exact (h.before d hd).1 hr
      · exact (h.after d hd).1 hr
    have le_trans : ∀ (a r : Ref), ¬ r <+: a.dropLast → a ≠ [] → Ref.le a (r ++ [j]) = Ref.le a r := by
      intro a
      induction a with
      | nil => intro r _ h; exact absurd rfl h
      | cons b a ih =>
        intro r hr _
        cases r with
        | nil => exact absurd List.nil_prefix hr
        | cons c r =>
          simp only [List.cons_append, Ref.le]
          by_cases hbc : b = c
          · subst hbc
            simp only [Nat.lt_irrefl, decide_false, beq_self_eq_true, Bool.true_and, Bool.false_or]
            cases a with
            | nil => cases r <;> rfl
            | cons a' a =>
              refine ih r ?_ (by simp)
              intro hp
              apply hr
              rw [List.dropLast_cons_cons]
              simpa using hp
          · have : (b == c) = false := by simpa using hbc
            simp [this]
    refine ⟨D1 ++ A, B ++ D2, ?_, ?_, ?_⟩
    · rw [h.eq, View.decos, h1]
      simp only [List.append_assoc]
    · intro d hd
      rcases List.mem_append.1 hd with hd | hd
      · refine ⟨pre d (by simp [hd]), ?_⟩
        rw [le_trans _ _ (by simpa using (h.before d hd).1) (by simp)]
        exact (h.before d hd).2
      · exact prefix_side (h2 d hd)
    · intro d hd
      rcases List.mem_append.1 hd with hd | hd
      · exact prefix_side (h3 d hd)
      · refine ⟨pre d (by simp [hd]), ?_⟩
        rw [le_trans _ _ (by simpa using (h.after d hd).1) (by simp)]
        exact (h.after d hd).2

/-- The same for a file, whose comments include those before its first token. -/
theorem Split.root {k : Kind} {ps : Parts} {j : Nat} {y : View}
    (hj : ps.slot j = some y) :
    ∃ D1 D2, Split ((View.node k ps).decos [] true) [j] y D1 D2 := by
  obtain ⟨A, B, h1, h2, h3⟩ := parts_split ps (.node k ps) [] 0 none true none j y hj
  rw [Nat.zero_add] at h1 h2 h3
  refine ⟨A, B, ?_, fun d hd => prefix_side (h2 d hd), fun d hd => prefix_side (h3 d hd)⟩
  rw [View.decos, h1]
  rfl

end Verif.Format
