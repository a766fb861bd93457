import Verif.Lemmas.SpliceText

/-!
# The selected statements in the text of a file
-/

namespace Verif.Whole
open Verif.Syntax Verif.Parser Verif.Format Verif.RangeFormat

mutual
theorem plainly_comments : ∀ e : Expr, e.plainly.comments = []
  | .atom .. => rfl
  | .str .. => rfl
  | .paren _ _ e _ => by simp [Expr.plainly, Expr.comments, Ann.all, plainly_comments e]
  | .braced _ _ es r => by simp [Expr.plainly, Expr.comments, Ann.all, plainlys_comments es]
  | .unary _ _ e => by simp [Expr.plainly, Expr.comments, Ann.all, plainly_comments e]
  | .binary _ x _ y => by simp [Expr.plainly, Expr.comments, Ann.all, plainly_comments x, plainly_comments y]
  | .sel _ _ x _ y => by simp [Expr.plainly, Expr.comments, Ann.all, plainly_comments x, plainly_comments y]
  | .call _ _ f _ _ items _ => by
    simp [Expr.plainly, Expr.comments, Ann.all, plainly_comments f, plainlyItems_comments items]
  | .func _ _ _ _ items _ b => by
    simp [Expr.plainly, Expr.comments, Ann.all, plainly_comments b, plainlyItems_comments items]
  | .ite _ _ _ c _ t => by simp [Expr.plainly, Expr.comments, Ann.all, plainly_comments c, plainly_comments t]
  | .itee _ _ _ c _ t _ _ e => by
    simp [Expr.plainly, Expr.comments, Ann.all, plainly_comments c, plainly_comments t, plainly_comments e]
  | .for_ _ _ _ v _ s _ b => by
    simp [Expr.plainly, Expr.comments, Ann.all, plainly_comments v, plainly_comments s, plainly_comments b]
  | .while_ _ _ _ c _ b => by simp [Expr.plainly, Expr.comments, Ann.all, plainly_comments c, plainly_comments b]
  | .repeat_ _ _ b => by simp [Expr.plainly, Expr.comments, Ann.all, plainly_comments b]
theorem plainlys_comments : ∀ (es : Exprs), es.plainly.comments = []
  | .nil => rfl
  | .cons e es => by simp [Exprs.plainly, Exprs.comments, plainly_comments e, plainlys_comments es]
theorem plainlyItems_comments : ∀ (xs : Items), xs.plainly.comments = []
  | .nil => rfl
  | .last x => by simp [Items.plainly, Items.comments, plainlyArg_comments x]
  | .cons x _ xs => by simp [Items.plainly, Items.comments, plainlyArg_comments x, plainlyItems_comments xs]
theorem plainlyArg_comments : ∀ (x : Arg), x.plainly.comments = []
  | .hole _ => rfl
  | .val _ e => by simp [Arg.plainly, Arg.comments, Ann.all, plainly_comments e]
  | .name _ _ n _ => by simp [Arg.plainly, Arg.comments, Ann.all, plainly_comments n]
  | .named _ _ n _ e => by simp [Arg.plainly, Arg.comments, Ann.all, plainly_comments n, plainly_comments e]
  | .pdef _ n _ _ e => by simp [Arg.plainly, Arg.comments, Ann.all, plainly_comments n, plainly_comments e]
end

/-- What the formatter sees, without comments attached. -/
theorem parsed_bald {text : List Byte} {root : TsNode} {p : Exprs} (ha : Agrees text root p)
    (hr : readText (lf text) = some p.bare) (hl : LineEnds text root) :
    ∃ x, Parsed text root p x ∧ seenRoot text root = some x ∧ x.es.comments = [] ∧ x.es.loops = true := by
  obtain ⟨y, hy⟩ := parsed ha
  obtain ⟨-, hb, -, hg, -⟩ := parsed_program ha hr hl hy
  have hlo : y.es.loops = true := by
    rw [← bares_loops, hb, bares_loops]
    exact writtens_loops p ha.written.2
  obtain ⟨s, h1, -, h3⟩ := shown_root hg hlo hy.kind
  refine ⟨y.plainly, parsed_plainly hy, ?_, plainlys_comments _, ?_⟩
  · simp [seenRoot, hy.parse, h1, h3]
  · rw [← bares_loops]
    simp only [Root.plainly, plainlys_bare]
    rw [bares_loops, hlo]

/-- Expressions are expressions. -/
theorem isExpression_tree {e : Expr} {eq : Bool} (h : e.gram eq = true) : isExpression (exprTree e).kind = true := by
  cases e with
  | atom a k t =>
    simp only [Expr.gram, beq_iff_eq] at h
    show isExpression k = true
    revert h
    cases t.kind <;> simp [atomKind] <;> (try rintro rfl) <;> rfl
  | sel a k x p y => cases k <;> rfl
  | call a k f aa l items r => cases k <;> rfl
  | _ => rfl

theorem isExpression_trees : {es : Exprs} → es.gram = true → ∀ t ∈ exprTrees es, isExpression t.kind = true
  | .nil, _, t, ht => by cases ht
  | .cons e es, h, t, ht => by
    simp only [Exprs.gram, Bool.and_eq_true] at h
    rcases List.mem_cons.1 ht with rfl | ht
    · exact isExpression_tree h.1
    · exact isExpression_trees h.2 t ht

theorem located_snd (s : Nat) (ts : List Tree) : (located s ts).map Prod.snd = ts := by
  induction ts generalizing s with
  | nil => rfl
  | cons t ts ih => simp [located, ih]

/-- Which statements of a file are selected. -/
theorem selected {text : List Byte} {root : TsNode} {p : Exprs} {x : Root} (ha : Agrees text root p)
    (hr : readText (lf text) = some p.bare) (hl : LineEnds text root) (hp : Parsed text root p x) (start stop : Nat)
    (hle : start ≤ stop) : logicalLines (fileTree x) start stop = [] ∨
      ∃ A C B mid, InExprs A C B ∧ x.es = C mid ∧ mid ≠ .nil ∧
        (∀ d ∈ exprTrees mid, 0 < trimmedLen d) ∧
        logicalLines (fileTree x) start stop = located (fullLen A) (exprTrees mid) := by
  have hls := parsed_lists ha hr hl hp
  obtain ⟨-, -, -, hg, -⟩ := parsed_program ha hr hl hp
  rcases C29_lines _ _ start stop hls hle with ⟨-, h⟩ | ⟨q, s, pre, M, post, ho, -, -, h, -⟩
  · exact .inl h
  · by_cases hM : M = []
    · subst hM; exact .inl h
    obtain ⟨A, C, B, mid, h1, h2, h3, h4⟩ := gap_file hg ho
    refine .inr ⟨A, C, B, mid, h1, h2, ?_, ?_, by rw [← h4, ← h3]; exact h⟩
    · rintro rfl; exact hM h3
    · obtain ⟨top, hl'⟩ := occ_lists ho true hls
      rw [Lists] at hl'
      intro d hd
      exact ((hl'.2.1 rfl).1 d (by simp [h3, hd])).2.2

theorem exprTrees_head {es : Exprs} {c : Tree} (h : (exprTrees es).head? = some c) :
    c.tokens.head? = es.tokens.head? := by
  cases es with
  | nil => cases h
  | cons e es =>
    cases h
    rw [exprTree_tokens, Exprs.tokens]
    have := expr_tokens_ne e
    cases h : e.tokens with
    | nil => exact absurd h this
    | cons t ts => rfl

theorem exprTrees_last : {es : Exprs} → {c : Tree} → (exprTrees es).getLast? = some c →
    c.tokens.getLast? = es.tokens.getLast?
  | .nil, c, h => by cases h
  | .cons e .nil, c, h => by
    have h : exprTree e = c := by simpa [exprTrees] using h
    rw [← h, exprTree_tokens, Exprs.tokens, Exprs.tokens, List.append_nil]
  | .cons e (.cons e' es), c, h => by
    have ih := exprTrees_last (es := .cons e' es) (c := c) (by simpa [exprTrees] using h)
    have : (Exprs.cons e' es).tokens ≠ [] := by simp [Exprs.tokens, expr_tokens_ne]
    have h2 : (Exprs.cons e (.cons e' es)).tokens = e.tokens ++ (Exprs.cons e' es).tokens := rfl
    rw [ih, h2, List.getLast?_append]
    cases h : (Exprs.cons e' es).tokens.getLast? with
    | none => simp at h; exact absurd h this
    | some t => rfl

theorem unix_of {text : List Byte} {root : TsNode} {p : Exprs} {x : Root} (h13 : 13 ∉ text)
    (hp : Parsed text root p x) {t : Token} (ht : t ∈ allTokens x) : Unix t := by
  have h1 : ∀ b ∈ t.full, b ≠ 13 := by
    rintro b hb rfl
    refine h13 ?_
    rw [← hp.bytes]
    exact List.mem_flatten.2 ⟨_, List.mem_map_of_mem ht, hb⟩
  refine ⟨fun h => h1 13 (by simp [Token.full, h]) rfl, fun q hq => ⟨hp.pieces t ht q hq, fun h => h1 13 ?_ rfl⟩⟩
  rw [Token.full]
  rcases List.mem_append.1 hq with hq | hq
  · exact List.mem_append_left _ (List.mem_append_left _ (List.mem_flatten.2 ⟨_, List.mem_map_of_mem hq, h⟩))
  · exact List.mem_append_right _ (List.mem_flatten.2 ⟨_, List.mem_map_of_mem hq, h⟩)

/-- The text before, in and after the range that is replaced. -/
theorem range_text {text : List Byte} {root : TsNode} {p : Exprs} {x : Root} {A B : List Token} {C : Exprs → Exprs}
    {mid : Exprs} (h13 : 13 ∉ text)
    (hp : Parsed text root p x) (hC : InExprs A C B) (he : x.es = C mid) (hne : mid ≠ .nil)
    (hpos : ∀ d ∈ exprTrees mid, 0 < trimmedLen d) :
    ∃ P M Q i j, rawFile x.es.tokens x.eof = P ++ M ++ Q ∧ printedToks P = A.map outTok ∧
      printedToks M = mid.tokens.map outTok ∧ printedToks Q = B.map outTok ∧
      ((∃ t r, M = .tok t :: r) ∨ endState .fresh P = .fresh) ∧
      endState (endState .fresh P) M ≠ .fresh ∧
      formatRange (located (fullLen A) (exprTrees mid)) = some (i, j) ∧
      render P = text.take i ∧ render Q = text.drop j ∧ i ≤ j ∧ j ≤ text.length ∧
      ((∀ u ∈ B.head?, ∃ q ∈ u.leading, q.kind = .newline) → ∀ s s', seen s Q = seen s' Q) := by
  have htok : x.es.tokens = A ++ mid.tokens ++ B := by rw [he, hC.tokens]
  have hun : ∀ t ∈ x.es.tokens, Unix t := fun t ht => unix_of h13 hp (List.mem_append_left _ ht)
  have hmt : mid.tokens ≠ [] := exprs_tokens_ne hne
  obtain ⟨c, e, hc, hce, hf⟩ := formatRange_located (mid := exprTrees mid) (fullLen A)
    (by cases mid with | nil => exact absurd rfl hne | cons => simp [exprTrees]) hpos
  obtain ⟨k, hk⟩ : ∃ k, mid.tokens.head? = some k := by
    cases h : mid.tokens with
    | nil => exact absurd h hmt
    | cons k r => exact ⟨k, rfl⟩
  obtain ⟨j, hj⟩ : ∃ j, mid.tokens.getLast? = some j := by
    cases h : mid.tokens.getLast? with
    | none => simp at h; exact absurd h hmt
    | some j => exact ⟨j, rfl⟩
  obtain ⟨M, e1, e2, e3, e4⟩ := around_toks hk hj
  have hkm : k ∈ mid.tokens := List.mem_of_mem_head? hk
  have hjm : j ∈ mid.tokens := List.mem_of_mem_getLast? hj
  have huA : ∀ t ∈ A, Unix t := fun t ht => hun t (by simp [htok, ht])
  have huM : ∀ t ∈ mid.tokens, Unix t := fun t ht => hun t (by simp [htok, ht])
  have huB : ∀ t ∈ B, Unix t := fun t ht => hun t (by simp [htok, ht])
  have hblank1 : ∀ q ∈ k.leading.takeWhile RangeFormat.Piece.isBlank, q.kind ≠ .comment :=
    (takeWhile_blank k.leading).choose_spec.2.2
  have r1 : render ((k.leading.takeWhile RangeFormat.Piece.isBlank).map pieceEl) =
      Syntax.piecesText (k.leading.takeWhile RangeFormat.Piece.isBlank) :=
    render_unix fun q hq => (huM k hkm).pieces q (List.mem_append_left _ (List.takeWhile_subset _ hq))
  have r2 : render ((j.trailing.reverse.takeWhile RangeFormat.Piece.isBlank).reverse.map pieceEl) =
      Syntax.piecesText (j.trailing.reverse.takeWhile RangeFormat.Piece.isBlank).reverse :=
    render_unix fun q hq => (huM j hjm).pieces q (List.mem_append_right _ (by
      have := List.takeWhile_subset _ (List.mem_reverse.1 hq)
      exact List.mem_reverse.1 this))
  have r3 : render (rawFile x.es.tokens x.eof) = text := by
    rw [rawFile_toks, render_append, render_toks hun, render_unix fun q hq =>
      (unix_of h13 hp (t := x.eof) (by simp [allTokens])).pieces q (List.mem_append_left _ hq)]
    have h1 := hp.bytes
    simp only [allTokens, List.map_append, List.flatten_append, List.map_cons, List.map_nil,
      List.flatten_cons, List.flatten_nil, Token.full, hp.empty, hp.trailing] at h1
    simpa [Syntax.piecesText] using h1
  have hraw : rawFile x.es.tokens x.eof = rawToks A ++ (k.leading.takeWhile RangeFormat.Piece.isBlank).map pieceEl ++ M ++
      ((j.trailing.reverse.takeWhile RangeFormat.Piece.isBlank).reverse.map pieceEl ++ rawFile B x.eof) := by
    rw [rawFile_toks, rawFile_toks, htok, rawToks_append, rawToks_append, e1]
    simp
  have lA : (render (rawToks A)).length = fullLen A := by rw [render_toks huA]; rfl
  have lM : lens (exprTrees mid) = (render (rawToks mid.tokens)).length := by
    rw [lens_exprs, render_toks huM]; rfl
  have bl : blankLead c = (Syntax.piecesText (k.leading.takeWhile RangeFormat.Piece.isBlank)).length := by
    simp [blankLead, exprTrees_head hc, hk]
  have bt : blankTrail e = (Syntax.piecesText (j.trailing.reverse.takeWhile RangeFormat.Piece.isBlank).reverse).length := by
    simp [blankTrail, exprTrees_last hce, hj, Syntax.piecesText, List.length_flatten, List.map_reverse, List.sum_reverse]
  rw [e1, render_append, render_append, r1, r2] at lM
  simp only [List.length_append] at lM
  refine ⟨_, M, _, _, _, hraw, ?_, e2, ?_, ?_, e4 _, hf, ?_, ?_, ?_, ?_, ?_⟩
  · rw [printedToks_append, printedToks_rawToks, printedToks_pieces, List.append_nil]
  · rw [printedToks_append, printedToks_rawFile, printedToks_pieces, List.nil_append]
  · rcases e3 with h | ⟨a, c', b, ea, ec, eb⟩
    · exact .inl h
    · right
      rw [endState_append]
      by_cases hA : A = []
      · subst hA
        exact blank_fresh hblank1
      · refine blank_newline hblank1 ?_ _
        have hown : CommentsOnOwnLine k.leading := by
          refine hp.own k ?_
          obtain ⟨a0, A', rfl⟩ := List.exists_cons_of_ne_nil hA
          simp only [allTokens, htok, List.cons_append, List.tail_cons]
          simp [hkm]
        obtain ⟨n, hn, hn', -⟩ := hown a c' b ea ec
        exact ⟨n, eb ▸ hn, hn'⟩
  · have : text = render (rawToks A ++ (k.leading.takeWhile RangeFormat.Piece.isBlank).map pieceEl) ++
        render (M ++ ((j.trailing.reverse.takeWhile RangeFormat.Piece.isBlank).reverse.map pieceEl ++ rawFile B x.eof)) := by
      rw [← render_append, ← r3, hraw]; simp
    rw [this]
    refine (List.take_left' ?_).symm
    rw [render_append, List.length_append, lA, r1, bl]
  · have : text = render (rawToks A ++ (k.leading.takeWhile RangeFormat.Piece.isBlank).map pieceEl ++ M) ++
        render ((j.trailing.reverse.takeWhile RangeFormat.Piece.isBlank).reverse.map pieceEl ++ rawFile B x.eof) := by
      rw [← render_append, ← r3, hraw]
    rw [this]
    refine (List.drop_left' ?_).symm
    rw [render_append, render_append, List.length_append, List.length_append, lA, r1, bt, lM]
    omega
  · omega
  · have : text.length = (render (rawToks A)).length + lens (exprTrees mid) + (render (rawFile B x.eof)).length := by
      rw [← r3, hraw]
      simp only [render_append, List.length_append, r1, r2, lM]
      omega
    omega
  · intro hb s s'
    cases B with
    | nil =>
      have h1 : rawFile [] x.eof = x.eof.leading.map pieceEl := rfl
      rw [h1, ← List.map_append, seen_pieces, seen_pieces]
    | cons u B =>
      obtain ⟨q, hq, hk'⟩ := hb u rfl
      refine landed_newline (pre := (j.trailing.reverse.takeWhile RangeFormat.Piece.isBlank).reverse.map pieceEl)
        (ps := u.leading) (rest := [.tok (outTok u)] ++ u.trailing.map pieceEl ++ rawFile B x.eof) ?_
        (printedToks_pieces _) ⟨q, hq, hk'⟩ s s'
      simp [rawFile_toks, rawToks]

end Verif.Whole
