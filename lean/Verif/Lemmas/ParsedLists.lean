import Verif.Lemmas.Parsed
import Verif.Spec.RangeFormat

/-! # Expression lists in the trees of the parser -/

namespace Verif.Whole
open Verif.Syntax Verif.Format Verif.RangeFormat

/-- Tokens have text, and where a separator is needed there is one. -/
def Gaps (S : List (Pos × Tok)) (T : List Token) : Prop :=
  (∀ t ∈ T, t.text ≠ []) ∧
  ∀ A u v B A' q w B', T = A ++ u :: v :: B → S = A' ++ q :: (Pos.need, w) :: B' → A.length = A'.length →
    0 < (Syntax.piecesText u.trailing).length + (Syntax.piecesText v.leading).length

theorem Gaps.mid {S S1 S2 S3 : List (Pos × Tok)} {T T1 T2 T3 : List Token} (h : Gaps S T)
    (hS : S = S1 ++ S2 ++ S3) (hT : T = T1 ++ T2 ++ T3) (hl : S1.length = T1.length) : Gaps S2 T2 := by
  subst hS hT
  refine ⟨fun t ht => h.1 t (by simp [ht]), ?_⟩
  rintro A u v B A' q w B' rfl rfl hl'
  exact h.2 (T1 ++ A) u v (B ++ T3) (S1 ++ A') q w (B' ++ S3) (by simp) (by simp) (by simp [hl, hl'])

theorem Gaps.head {p : Pos} {S : List (Pos × Tok)} {T : List Token} (h : Gaps (setHead p S) T) : Gaps S T := by
  refine ⟨h.1, ?_⟩
  rintro A u v B A' q w B' rfl rfl hl
  cases A' with
  | nil => exact h.2 A u v B [] (p, q.2) w B' rfl rfl hl
  | cons a A' => exact h.2 A u v B ((p, a.2) :: A') q w B' rfl rfl (by simpa using hl)

theorem shape_len (g : Region) (e : Expr) : (shape g e).length = e.tokens.length := by
  have := congrArg List.length (shape_toks g e)
  simpa using this
theorem shapes_len (g : Region) (p : Pos) (es : Exprs) : (shapes g p es).length = es.tokens.length := by
  have := congrArg List.length (shapes_toks g p es)
  simpa using this
theorem shapeItems_len (items : Items) : (shapeItems items).length = items.tokens.length := by
  have := congrArg List.length (shapeItems_toks items)
  simpa using this
theorem shapeArg_len (x : Arg) : (shapeArg x).length = x.tokens.length := by
  have := congrArg List.length (shapeArg_toks x)
  simpa using this
theorem setHead_len (p : Pos) (S : List (Pos × Tok)) : (setHead p S).length = S.length := by
  cases S <;> rfl

/-- Not an expression list, and the lists in it are as they should be. -/
def Good (t : Tree) : Prop := (∀ k xs, t = .node k xs → k ≠ .rExpressionList) ∧ Lists false t

theorem good_token (t : Token) : Good (.token t) := ⟨nofun, trivial⟩

theorem listsAll_of {cs : List Tree} (h : ∀ c ∈ cs, Lists false c) : ListsAll cs := by
  induction cs with
  | nil => trivial
  | cons c cs ih => exact ⟨h c (by simp), ih fun c hc => h c (by simp [hc])⟩

theorem good_node {k : Kind} {cs : List Tree} (hk : k ≠ .rExpressionList) (h : ∀ c ∈ cs, Good c) :
    Good (.node k cs) := by
  refine ⟨?_, .inl ?_, fun h => absurd h hk, listsAll_of fun c hc => (h c hc).2⟩
  · rintro _ _ ⟨⟩; exact hk
  · intro k xs hm; exact (h _ hm).1 k xs rfl

theorem atomKind_ne {k k' : Kind} (h : atomKind k = some k') : k' ≠ .rExpressionList := by
  rintro rfl
  unfold atomKind at h
  split at h <;> cases h

theorem token_full_len (t : Token) : t.full.length =
    (Syntax.piecesText t.leading).length + t.text.length + (Syntax.piecesText t.trailing).length := by
  simp [Token.full, Nat.add_assoc]

theorem exprTree_isNode (e : Expr) : ∃ k ds, exprTree e = .node k ds := by
  cases e <;> exact ⟨_, _, rfl⟩

theorem expr_tokens_ne (e : Expr) : e.tokens ≠ [] := by
  cases e <;> simp [Expr.tokens]

theorem trimmed_pos {t : Tree} (h1 : t.tokens ≠ []) (h2 : ∀ u ∈ t.tokens, u.text ≠ []) : 0 < trimmedLen t := by
  unfold trimmedLen len lead trail Tree.full
  revert h1 h2
  generalize t.tokens = ts
  intro h1 h2
  cases ts with
  | nil => exact absurd rfl h1
  | cons a ts =>
    have ha := List.length_pos_iff.2 (h2 a (by simp))
    rcases List.eq_nil_or_concat ts with rfl | ⟨ts', b, rfl⟩
    · simp [token_full_len]; omega
    · rw [List.concat_eq_append]
      have : (a :: (ts' ++ [b])).getLast? = some b := by
        rw [← List.cons_append, List.getLast?_concat]
      simp [token_full_len, this]
      omega

theorem lead_expr {e : Expr} {v : Token} {r : List Token} (h : e.tokens = v :: r) :
    lead (exprTree e) = (Syntax.piecesText v.leading).length := by
  simp [lead, exprTree_tokens, h]

theorem trail_expr {e : Expr} {u : Token} {r : List Token} (h : e.tokens = r ++ [u]) :
    trail (exprTree e) = (Syntax.piecesText u.trailing).length := by
  simp [trail, exprTree_tokens, h]

/-- Neighbours are apart. -/
def Chained : List Tree → Prop
  | x :: y :: r => 0 < trail x + lead y ∧ Chained (y :: r)
  | _ => True

theorem Chained.at {x y : Tree} {r : List Tree} : ∀ {l : List Tree}, Chained (l ++ x :: y :: r) → 0 < trail x + lead y
  | [], h => h.1
  | [_], h => (show Chained (x :: y :: r) from h.2).1
  | _ :: b :: l, h => Chained.at (l := b :: l) h.2

theorem chained_exprs (g : Region) : (p : Pos) → (es : Exprs) → Gaps (shapes g p es) es.tokens →
    Chained (exprTrees es)
  | _, .nil, _ => trivial
  | _, .cons _ .nil, _ => trivial
  | p, .cons e (.cons e2 es), h => by
    refine ⟨?_, chained_exprs g .need (.cons e2 es) (h.mid (S1 := setHead p (shape g e)) (S3 := [])
      (T1 := e.tokens) (T3 := []) (by simp [shapes]) (by simp [Exprs.tokens])
      (by rw [setHead_len, shape_len]))⟩
    obtain ⟨r1, u, h1⟩ : ∃ r u, e.tokens = r ++ [u] := by
      rcases List.eq_nil_or_concat e.tokens with h | ⟨r, u, h⟩
      · exact absurd h (expr_tokens_ne e)
      · exact ⟨r, u, by simpa using h⟩
    obtain ⟨v, r2, h2⟩ := List.exists_cons_of_ne_nil (expr_tokens_ne e2)
    rw [trail_expr h1, lead_expr h2]
    obtain ⟨S1, q, hS1⟩ : ∃ r u, setHead p (shape g e) = r ++ [u] := by
      rcases List.eq_nil_or_concat (setHead p (shape g e)) with h | ⟨r, u, h⟩
      · have := congrArg List.length h
        rw [setHead_len, shape_len, h1] at this
        simp at this
      · exact ⟨r, u, by simpa using h⟩
    obtain ⟨w, S2, hS2⟩ : ∃ w r, setHead Pos.need (shape g e2) = (Pos.need, w) :: r := by
      cases hs : shape g e2 with
      | nil =>
        have := congrArg List.length hs
        rw [shape_len, h2] at this
        simp at this
      | cons a r => exact ⟨a.2, r, rfl⟩
    refine h.2 r1 u v (r2 ++ es.tokens) S1 q w (S2 ++ shapes g .need es) ?_ ?_ ?_
    · simp [Exprs.tokens, h1, h2]
    · simp [shapes, hS1, hS2]
    · have h3 := congrArg List.length hS1
      have h4 := congrArg List.length h1
      rw [setHead_len, shape_len] at h3
      simp at h3 h4
      omega

theorem good_exprs {g : Region} {p : Pos} {es : Exprs} (h : Gaps (shapes g p es) es.tokens)
    (ha : ∀ c ∈ exprTrees es, Good c ∧ (∃ k ds, c = .node k ds) ∧ c.tokens ≠ [] ∧ 0 < trimmedLen c) :
    Lists false (.node .rExpressionList (exprTrees es)) := by
  refine ⟨.inl fun k xs hm => (ha _ hm).1.1 k xs rfl, fun _ => ⟨fun c hc => (ha c hc).2, ?_⟩,
    listsAll_of fun c hc => (ha c hc).1.2⟩
  intro l x y r e
  have := chained_exprs g p es h
  rw [e] at this
  exact this.at

mutual
theorem good_expr (g : Region) : (b : Bool) → (e : Expr) → e.gram b = true → Gaps (shape g e) e.tokens →
    Good (exprTree e)
  | _, .atom _ k t, hg, h => by
    simp only [Expr.gram, beq_iff_eq] at hg
    refine good_node (atomKind_ne hg) ?_
    simp [good_token]
  | _, .str _ o c l, _, _ => by
    refine good_node (by decide) ?_
    cases c <;> simp [good_token]
  | _, .paren _ l e r, hg, h => by
    simp only [Expr.gram, Bool.and_eq_true] at hg
    have := good_expr .paren true e hg.1.2 (h.mid (S1 := [(.free, outTok l)]) (S3 := [(.free, outTok r)])
      (T1 := [l]) (T3 := [r]) (by simp [shape])
      (by simp [Expr.tokens]) rfl)
    refine good_node (by decide) ?_
    simp [good_token, this]
  | _, .braced _ l es r, hg, h => by
    simp only [Expr.gram, Bool.and_eq_true] at hg
    have h' : Gaps (shapes .brace .free es) es.tokens := (h.mid (S1 := [(.free, outTok l)]) (S3 := [(.free, outTok r)])
      (T1 := [l]) (T3 := [r]) (by simp [shape])
      (by simp [Expr.tokens]) rfl)
    have := good_exprs h' (good_each .brace .free es hg.1.2 h')
    refine ⟨?_, .inr (.inr ⟨l, _, r, rfl, h.1 r (by simp [Expr.tokens])⟩), nofun, trivial, this, trivial, trivial⟩
    rintro _ _ ⟨⟩; decide
  | _, .unary _ o e, hg, h => by
    simp only [Expr.gram] at hg
    split at hg
    · simp only [Bool.and_eq_true] at hg
      have := good_expr g _ e hg.1 (h.mid (S1 := [_]) (S3 := []) (T1 := [o]) (T3 := []) (by simp [shape]; rfl)
        (by simp [Expr.tokens]) rfl)
      refine good_node (by decide) ?_
      simp [good_token, this]
    · cases hg
  | _, .binary _ x o y, hg, h => by
    simp only [Expr.gram] at hg
    split at hg
    · simp only [Bool.and_eq_true] at hg
      have h1 := good_expr g _ x hg.1.1.1.1 (h.mid (S1 := []) (T1 := []) (by simp [shape]; rfl)
        (by simp [Expr.tokens]; rfl) rfl)
      have h2 := good_expr g _ y hg.1.1.1.2 (h.mid (S1 := shape g x ++ [_]) (S3 := []) (T1 := x.tokens ++ [o]) (T3 := [])
        (by simp [shape]; rfl) (by simp [Expr.tokens]) (by simp [shape_len]))
      refine good_node (by decide) ?_
      simp [good_token, h1, h2]
    · cases hg
  | _, .sel _ .extract x o y, hg, h => by
    simp only [Expr.gram, Bool.and_eq_true] at hg
    have h1 := good_expr g _ x hg.1.1.1 (h.mid (S1 := []) (T1 := []) (by simp [shape]; rfl)
      (by simp [Expr.tokens]; rfl) rfl)
    have h2 := good_expr g _ y (selector_gram hg.2).1 (h.mid (S1 := shape g x ++ [_]) (S3 := [])
      (T1 := x.tokens ++ [o]) (T3 := []) (by simp [shape]; rfl) (by simp [Expr.tokens]) (by simp [shape_len]))
    refine good_node (by decide) ?_
    simp [good_token, h1, h2]
  | _, .sel _ .namespace x o y, hg, h => by
    simp only [Expr.gram, Bool.and_eq_true] at hg
    have h1 := good_expr g _ x (selector_gram hg.1.1).1 (h.mid (S1 := []) (T1 := []) (by simp [shape]; rfl)
      (by simp [Expr.tokens]; rfl) rfl)
    have h2 := good_expr g _ y (selector_gram hg.2).1 (Gaps.head (p := g.op) (h.mid (S1 := shape g x ++ [_]) (S3 := [])
      (T1 := x.tokens ++ [o]) (T3 := []) (by simp [shape]; rfl) (by simp [Expr.tokens]) (by simp [shape_len])))
    refine good_node (by decide) ?_
    simp [good_token, h1, h2]
  | _, .call _ k f _ l items r, hg, h => by
    simp only [Expr.gram, Bool.and_eq_true] at hg
    have h1 := good_expr g _ f hg.1.1.1.1 (h.mid (S1 := []) (T1 := []) (by simp [shape]; rfl)
      (by simp [Expr.tokens]; rfl) rfl)
    have h2 := good_args _ items hg.1.2 (h.mid (S1 := shape g f ++ [(g.op, outTok l)])
      (S3 := [(.free, outTok r)]) (T1 := f.tokens ++ [l]) (T3 := [r]) (by simp [shape]) (by simp [Expr.tokens]) (by simp [shape_len]))
    refine good_node (by cases k <;> decide) ?_
    have h3 : Good (.node .rArgumentList (itemTrees false items)) := good_node (by decide) h2
    have h4 : Good (.node (argsKind k) [.token l, .node .rArgumentList (itemTrees false items), .token r]) := by
      refine good_node (by cases k <;> decide) ?_
      simp [good_token, h3]
    simp [h1, h4]
  | _, .func _ kw _ l items r b, hg, h => by
    simp only [Expr.gram, Bool.and_eq_true] at hg
    have h1 := good_expr g _ b hg.1.2 (h.mid (S1 := _ :: _ :: (shapeItems items ++ [_])) (S3 := [])
      (T1 := kw :: l :: (items.tokens ++ [r])) (T3 := []) (by simp [shape]; exact ⟨rfl, rfl, rfl⟩)
      (by simp [Expr.tokens]) (by simp [shapeItems_len]))
    have h2 := good_pars items hg.1.1.1.2 (h.mid (S1 := [_, _])
      (T1 := [kw, l]) (by simp [shape]; exact ⟨rfl, rfl, rfl⟩) (by simp [Expr.tokens]; rfl) rfl)
    refine good_node (by decide) ?_
    have h3 : Good (.node .rParameterList (itemTrees true items)) := good_node (by decide) h2
    have h4 : Good (.node .rParameters [.token l, .node .rParameterList (itemTrees true items), .token r]) := by
      refine good_node (by decide) ?_
      simp [good_token, h3]
    simp [good_token, h1, h4]
  | _, .ite _ kw l c r t, hg, h => by
    simp only [Expr.gram, Bool.and_eq_true] at hg
    have h1 := good_expr .paren _ c hg.1.1.1.2 (h.mid (S1 := [_, _])
      (T1 := [kw, l]) (by simp [shape]; exact ⟨rfl, rfl, rfl⟩) (by simp [Expr.tokens]; rfl) rfl)
    have h2 := good_expr g _ t hg.1.2 (h.mid (S1 := _ :: _ :: (shape .paren c ++ [_])) (S3 := [])
      (T1 := kw :: l :: (c.tokens ++ [r])) (T3 := []) (by simp [shape]; exact ⟨rfl, rfl, rfl⟩)
      (by simp [Expr.tokens]) (by simp [shape_len]))
    refine good_node (by decide) ?_
    simp [good_token, h1, h2]
  | _, .itee _ kw l c r t _ el e, hg, h => by
    simp only [Expr.gram, Bool.and_eq_true] at hg
    have h1 := good_expr .paren _ c hg.1.1.1.1.1.1.1.2 (h.mid (S1 := [_, _])
      (T1 := [kw, l]) (by simp [shape]; exact ⟨rfl, rfl, rfl⟩) (by simp [Expr.tokens]; rfl) rfl)
    have h2 := good_expr g _ t hg.1.1.1.1.1.2 (h.mid (S1 := _ :: _ :: (shape .paren c ++ [_]))
      (T1 := kw :: l :: (c.tokens ++ [r])) (by simp [shape]; exact ⟨rfl, rfl, rfl, rfl⟩)
      (by simp [Expr.tokens]; rfl) (by simp [shape_len]))
    have h3 := good_expr g _ e hg.1.2 (h.mid (S1 := _ :: _ :: (shape .paren c ++ (_ :: (shape g t ++ [_])))) (S3 := [])
      (T1 := kw :: l :: (c.tokens ++ r :: (t.tokens ++ [el]))) (T3 := []) (by simp [shape]; exact ⟨rfl, rfl, rfl, rfl⟩)
      (by simp [Expr.tokens]) (by simp [shape_len]))
    refine good_node (by decide) ?_
    have h4 : Good (.node .rElseClause [.token el, exprTree e]) := by
      refine good_node (by decide) ?_
      simp [good_token, h3]
    simp [good_token, h1, h2, h4]
  | _, .for_ _ kw l v i s r b, hg, h => by
    simp only [Expr.gram, Bool.and_eq_true] at hg
    have h1 := good_expr .paren _ v (parName_gram hg.1.1.1.1.1.2) (h.mid (S1 := [_, _])
      (T1 := [kw, l]) (by simp [shape]; exact ⟨rfl, rfl, rfl⟩) (by simp [Expr.tokens]; rfl) rfl)
    have h2 := good_expr .paren _ s hg.1.1.1.2 (h.mid (S1 := _ :: _ :: (shape .paren v ++ [_]))
      (T1 := kw :: l :: (v.tokens ++ [i])) (by simp [shape]; exact ⟨rfl, rfl, rfl, rfl⟩)
      (by simp [Expr.tokens]; rfl) (by simp [shape_len]))
    have h3 := good_expr g _ b hg.1.2 (h.mid (S1 := _ :: _ :: (shape .paren v ++ (_ :: (shape .paren s ++ [_])))) (S3 := [])
      (T1 := kw :: l :: (v.tokens ++ i :: (s.tokens ++ [r]))) (T3 := []) (by simp [shape]; exact ⟨rfl, rfl, rfl, rfl⟩)
      (by simp [Expr.tokens]) (by simp [shape_len]))
    refine good_node (by decide) ?_
    simp [good_token, h1, h2, h3]
  | _, .while_ _ kw l c r b, hg, h => by
    simp only [Expr.gram, Bool.and_eq_true] at hg
    have h1 := good_expr .paren _ c hg.1.1.1.2 (h.mid (S1 := [_, _])
      (T1 := [kw, l]) (by simp [shape]; exact ⟨rfl, rfl, rfl⟩) (by simp [Expr.tokens]; rfl) rfl)
    have h2 := good_expr g _ b hg.1.2 (h.mid (S1 := _ :: _ :: (shape .paren c ++ [_])) (S3 := [])
      (T1 := kw :: l :: (c.tokens ++ [r])) (T3 := []) (by simp [shape]; exact ⟨rfl, rfl, rfl⟩)
      (by simp [Expr.tokens]) (by simp [shape_len]))
    refine good_node (by decide) ?_
    simp [good_token, h1, h2]
  | _, .repeat_ _ kw b, hg, h => by
    simp only [Expr.gram, Bool.and_eq_true] at hg
    have h1 := good_expr g _ b hg.1.2 (h.mid (S1 := [_]) (S3 := []) (T1 := [kw]) (T3 := []) (by simp [shape]; rfl)
      (by simp [Expr.tokens]) rfl)
    refine good_node (by decide) ?_
    simp [good_token, h1]
theorem good_each (g : Region) : (p : Pos) → (es : Exprs) → es.gram = true → Gaps (shapes g p es) es.tokens →
    ∀ c ∈ exprTrees es, Good c ∧ (∃ k ds, c = .node k ds) ∧ c.tokens ≠ [] ∧ 0 < trimmedLen c
  | _, .nil, _, _, c, hc => by cases hc
  | p, .cons e es, hg, h, c, hc => by
    simp only [Exprs.gram, Bool.and_eq_true] at hg
    have h1 : Gaps (setHead p (shape g e)) e.tokens := h.mid (S1 := []) (T1 := []) (by simp [shapes]; rfl)
      (by simp [Exprs.tokens]; rfl) rfl
    have h2 : Gaps (shapes g .need es) es.tokens := h.mid (S1 := setHead p (shape g e)) (S3 := [])
      (T1 := e.tokens) (T3 := []) (by simp [shapes]) (by simp [Exprs.tokens]) (by simp [setHead_len, shape_len])
    simp only [exprTrees, List.mem_cons] at hc
    rcases hc with rfl | hc
    · refine ⟨good_expr g true e hg.1 h1.head, exprTree_isNode e, ?_, ?_⟩
      · rw [exprTree_tokens]; exact expr_tokens_ne e
      · exact trimmed_pos (by rw [exprTree_tokens]; exact expr_tokens_ne e) (by rw [exprTree_tokens]; exact h1.1)
    · exact good_each g .need es hg.2 h2 c hc
theorem good_args : (b : Bool) → (items : Items) → items.gramArgs b = true → Gaps (shapeItems items) items.tokens →
    ∀ c ∈ itemTrees false items, Good c
  | _, .nil, _, _, c, hc => by cases hc
  | _, .last x, hg, h, c, hc => by
    simp only [Items.gramArgs, Bool.and_eq_true] at hg
    simp only [itemTrees, List.mem_cons, List.not_mem_nil, or_false] at hc
    subst hc
    exact good_arg x hg.1 h
  | _, .cons x s xs, hg, h, c, hc => by
    simp only [Items.gramArgs, Bool.and_eq_true] at hg
    simp only [itemTrees, List.mem_cons] at hc
    have h1 := good_arg x hg.1.1 (h.mid (S1 := []) (T1 := []) (by simp [shapeItems]; rfl)
      (by simp [Items.tokens]; rfl) rfl)
    have h2 := good_args _ xs hg.2 (h.mid (S1 := shapeArg x ++ [_]) (S3 := []) (T1 := x.tokens ++ [s]) (T3 := [])
      (by simp [shapeItems]; rfl) (by simp [Items.tokens]) (by simp [shapeArg_len]))
    rcases hc with rfl | rfl | hc
    · exact h1
    · exact good_token s
    · exact h2 c hc
theorem good_arg : (x : Arg) → x.gramArg = true → Gaps (shapeArg x) x.tokens → Good (argTree false x)
  | .hole _, _, _ => good_node (by decide) nofun
  | .val _ e, hg, h => by
    have := good_expr .paren false e hg h
    refine good_node (by decide) ?_
    simp [this]
  | .name _ _ n q, hg, h => by
    simp only [Arg.gramArg, Bool.and_eq_true] at hg
    have h1 := good_expr .paren false n (argName_gram hg.1) (h.mid (S1 := []) (T1 := []) (by simp [shapeArg]; rfl)
      (by simp [Arg.tokens]; rfl) rfl)
    refine good_node (by decide) ?_
    have h2 : Good (.node .rArgumentNameClause [exprTree n, .token q]) := by
      refine good_node (by decide) ?_
      simp [good_token, h1]
    simp [h2]
  | .named _ _ n q e, hg, h => by
    simp only [Arg.gramArg, Bool.and_eq_true] at hg
    have h1 := good_expr .paren false n (argName_gram hg.1.1) (h.mid (S1 := []) (T1 := []) (by simp [shapeArg]; rfl)
      (by simp [Arg.tokens]; rfl) rfl)
    have h3 := good_expr .paren false e hg.2 (h.mid (S1 := shape .paren n ++ [_]) (S3 := []) (T1 := n.tokens ++ [q]) (T3 := [])
      (by simp [shapeArg]; rfl) (by simp [Arg.tokens]) (by simp [shape_len]))
    refine good_node (by decide) ?_
    have h2 : Good (.node .rArgumentNameClause [exprTree n, .token q]) := by
      refine good_node (by decide) ?_
      simp [good_token, h1]
    simp [h2, h3]
theorem good_pars : (items : Items) → items.gramPars = true → Gaps (shapeItems items) items.tokens →
    ∀ c ∈ itemTrees true items, Good c
  | .nil, _, _, c, hc => by cases hc
  | .last x, hg, h, c, hc => by
    simp only [itemTrees, List.mem_cons, List.not_mem_nil, or_false] at hc
    subst hc
    exact good_par x hg h
  | .cons x s xs, hg, h, c, hc => by
    simp only [Items.gramPars, Bool.and_eq_true] at hg
    simp only [itemTrees, List.mem_cons] at hc
    have h1 := good_par x hg.1.1 (h.mid (S1 := []) (T1 := []) (by simp [shapeItems]; rfl)
      (by simp [Items.tokens]; rfl) rfl)
    have hg2 : xs.gramPars = true := by
      cases xs with
      | nil => rfl
      | last x => exact hg.2
      | cons x s xs => exact hg.2
    have h2 := good_pars xs hg2 (h.mid (S1 := shapeArg x ++ [_]) (S3 := []) (T1 := x.tokens ++ [s]) (T3 := [])
      (by simp [shapeItems]; rfl) (by simp [Items.tokens]) (by simp [shapeArg_len]))
    rcases hc with rfl | rfl | hc
    · exact h1
    · exact good_token s
    · exact h2 c hc
theorem good_par : (x : Arg) → x.gramPar = true → Gaps (shapeArg x) x.tokens → Good (argTree true x)
  | .val _ e, hg, h => by
    have := good_expr .paren false e (parName_gram hg) h
    refine good_node (by decide) ?_
    simp [this]
  | .pdef _ n _ q e, hg, h => by
    simp only [Arg.gramPar, Bool.and_eq_true] at hg
    have h1 := good_expr .paren false n (parName_gram hg.1.1) (h.mid (S1 := []) (T1 := []) (by simp [shapeArg]; rfl)
      (by simp [Arg.tokens]; rfl) rfl)
    have h3 := good_expr .paren _ e hg.2 (h.mid (S1 := shape .paren n ++ [_]) (S3 := []) (T1 := n.tokens ++ [q]) (T3 := [])
      (by simp [shapeArg]; rfl) (by simp [Arg.tokens]) (by simp [shape_len]))
    refine good_node (by decide) ?_
    have h2 : Good (.node .rParameterDefault [.token q, exprTree e]) := by
      refine good_node (by decide) ?_
      simp [good_token, h3]
    simp [h1, h2]
  | .hole _, hg, _ => by cases hg
  | .name .., hg, _ => by cases hg
  | .named .., hg, _ => by cases hg
end

theorem seen_printed (els : List El) : ∀ s : RState, (seen s els).length ≤ (printedToks els).length := by
  induction els with
  | nil => intro s; exact Nat.le_refl _
  | cons e els ih =>
    intro s
    have := ih (s.after e)
    cases e <;> simp only [seen, printedToks, List.nil_append, List.length_append, List.length_cons] <;>
      first | assumption | skip
    split <;> simp <;> omega

theorem fines_ne : ∀ (ts : List Tok) (st : List Tok), Stack st → Fines st ts → ∀ t ∈ ts, t.text ≠ []
  | [], _, _, _ => nofun
  | u :: ts, st, hst, h => by
    intro t ht
    rcases List.mem_cons.1 ht with rfl | ht
    · exact h.1.ne hst.1
    · exact fines_ne ts _ (stack_after hst h.1).1 h.2 t ht

theorem endState_empty : ∀ (ps : List Piece) (s : RState), (∀ q ∈ ps, q.kind = .whitespace ∧ q.text = []) →
    endState s (ps.map pieceEl) = s
  | [], _, _ => rfl
  | q :: ps, s, h => by
    obtain ⟨h1, h2⟩ := h q (by simp)
    rw [List.map_cons, endState]
    have : s.after (pieceEl q) = s := by simp [pieceEl, h1, h2, RState.after]
    rw [this]
    exact endState_empty ps s fun q hq => h q (by simp [hq])

theorem noTok_pieces (ps : List Piece) : NoTok (ps.map pieceEl) := printedToks_pieces ps

theorem fits_len : ∀ {ps : List (Pos × Tok)} {us : List (Bool × Tok)}, Fits ps us → ps.length = us.length
  | [], [], _ => rfl
  | _ :: ps, _ :: us, h => by simp [fits_len h.2.2]
  | [], _ :: _, h => h.elim
  | _ :: _, [], h => h.elim

/-- Tokens without anything in between are not separated. -/
theorem gap_needed {u v : Token} {B : List Token} {eof : Token} {q : Pos × Tok} {w : Tok} {B' : List (Pos × Tok)}
    (hu : ∀ q ∈ u.trailing, q.kind = .whitespace ∧ q.text = [])
    (hv : ∀ q ∈ v.leading, q.kind = .whitespace ∧ q.text = []) : ∀ (A : List Token) (A' : List (Pos × Tok)) (s : RState),
    Fits (A' ++ q :: (Pos.need, w) :: B') (seen s (rawFile (A ++ u :: v :: B) eof)) →
    (A' ++ q :: (Pos.need, w) :: B').length = (A ++ u :: v :: B).length → A.length = A'.length → False
  | t :: A, [], _, _, _, h => by cases h
  | [], t :: A', _, _, _, h => by cases h
  | [], [], s, h, hl, _ => by
    rw [List.nil_append, List.nil_append, rawFile_tok, seen_append_noTok (noTok_pieces _)] at h
    rw [seen] at h
    by_cases hs : endState s (u.leading.map pieceEl) = .comment
    · have h1 := fits_len h
      have h2 := seen_printed (u.trailing.map pieceEl ++ rawFile (v :: B) eof)
        ((endState s (u.leading.map pieceEl)).after (.tok (outTok u)))
      rw [printedToks_append, printedToks_pieces, printedToks_rawFile] at h2
      simp [hs] at h1 h2 hl
      omega
    · simp only [hs, if_false, List.cons_append, List.nil_append, RState.after] at h
      have h := h.2.2
      rw [seen_append_noTok (noTok_pieces _), endState_empty _ _ hu, rawFile_tok,
        seen_append_noTok (noTok_pieces _), endState_empty _ _ hv, seen] at h
      simp [Fits, Pos.Ok] at h
  | t :: A, p :: A', s, h, hl, hA => by
    rw [List.cons_append, List.cons_append, rawFile_tok, seen_append_noTok (noTok_pieces _)] at h
    rw [seen] at h
    by_cases hs : endState s (t.leading.map pieceEl) = .comment
    · have h1 := fits_len h
      have h2 := seen_printed (t.trailing.map pieceEl ++ rawFile (A ++ u :: v :: B) eof)
        ((endState s (t.leading.map pieceEl)).after (.tok (outTok t)))
      rw [printedToks_append, printedToks_pieces, printedToks_rawFile] at h2
      simp [hs] at h1 h2 hl
      omega
    · simp only [hs, if_false, List.cons_append, List.nil_append, RState.after] at h
      have h := h.2.2
      rw [seen_append_noTok (noTok_pieces _)] at h
      exact gap_needed hu hv A A' _ h (by simpa using hl) (by simpa using hA)

variable {text : List Byte} {root : Verif.Parser.TsNode} {p : Exprs} {x : Root}

/-- The tree that the parser builds has its expression lists where they belong. -/
theorem parsed_lists (ha : Agrees text root p) (hr : readText (lf text) = some p.bare) (hl : LineEnds text root)
    (hp : Parsed text root p x) : Lists true (fileTree x) := by
  obtain ⟨-, -, hsp, hg, hf⟩ := parsed_program ha hr hl hp
  have hseen : (seen .fresh (rawFile x.es.tokens x.eof)).map Prod.snd = x.es.tokens.map outTok :=
    (fits_toks hf).trans (shapes_toks _ _ _)
  have hne := fines_ne _ _ Stack.nil (fines_tidy _ _ (spelled_parted hsp hseen).1)
  rw [printedToks_rawFile] at hne
  have hG : Gaps (shapes .top .free x.es) x.es.tokens := by
    refine ⟨fun t ht h0 => hne _ (List.mem_map_of_mem ht) (by
      have := outTok_text (t := t) (by rw [h0]; intro a b; simp)
      rw [this, h0]), ?_⟩
    intro A u v B A' q w B' h1 h2 h3
    refine Nat.pos_of_ne_zero fun h0 => ?_
    have he : ∀ t ∈ allTokens x, ∀ q ∈ t.leading ++ t.trailing, q.text = [] → q.kind = .whitespace ∧ q.text = [] := by
      intro t ht q hq h0
      cases hk : q.kind with
      | whitespace => exact ⟨rfl, h0⟩
      | newline => have := hp.newline hl ht hq hk; rw [h0] at this; simp at this
      | comment => have := (hp.comment ha ht hq hk).1; rw [h0] at this; cases this
    have h0' : ∀ ps : List Piece, (Syntax.piecesText ps).length = 0 → ∀ q ∈ ps, q.text = [] := by
      intro ps h q hq
      have := List.eq_nil_of_length_eq_zero h
      unfold Syntax.piecesText at this
      exact List.flatten_eq_nil_iff.1 this _ (List.mem_map_of_mem hq)
    have hu : u ∈ allTokens x := List.mem_append_left _ (by rw [h1]; simp)
    have hv : v ∈ allTokens x := List.mem_append_left _ (by rw [h1]; simp)
    refine gap_needed (B := B) (eof := x.eof) (q := q) (w := w) (B' := B')
      (fun q hq => he u hu q (List.mem_append_right _ hq) (h0' _ (by omega) q hq))
      (fun q hq => he v hv q (List.mem_append_left _ hq) (h0' _ (by omega) q hq)) A A' .fresh ?_ ?_ h3
    · rw [← h1, ← h2]; exact hf
    · rw [← h1, ← h2]; exact shapes_len _ _ _
  have := good_exprs hG (good_each _ _ _ hg hG)
  exact ⟨.inr (.inl ⟨rfl, _, _, rfl⟩), nofun, this, trivial, trivial⟩

end Verif.Whole
