import Verif.Lemmas.Written
import Verif.Lemmas.LexParsed
import Verif.Props.Parser

/-! # What the parser makes of a text that R reads -/

namespace Verif.Whole
open Verif.Syntax Verif.Format
open Verif.Parser (Lined Apart Crisp LineEnd TsNode leaves parse between PieceOk TriviaOk CommentsEnd CommentsEndAll pieceComments
  tokenComments parse_ok items Item.all Tiled Leaf leafComments)

/-- The tokens of a file, the end included. -/
def allTokens (x : Root) : List Token := x.es.tokens ++ [x.eof]

/-- What is known of the tree that the parser builds. -/
structure Parsed (text : List Byte) (root : TsNode) (p : Exprs) (x : Root) : Prop where
  parse : parse text root false = some (fileTree x, false)
  ann : x.ann = {}
  bare : x.es.bare = p.bare
  tokens : x.es.tokens.map kt = p.tokens.map kt
  kind : x.eof.kind = .eof
  empty : x.eof.text = []
  trailing : x.eof.trailing = []
  bytes : ((allTokens x).map Token.full).flatten = text
  comments : ((allTokens x).map tokenComments).flatten =
    (leafComments (leaves root)).map (fun c => between text c.1 c.2)
  pieces : ∀ t ∈ allTokens x, ∀ q ∈ t.leading ++ t.trailing, PieceOk q
  lines : ∀ t ∈ allTokens x, ∀ q ∈ t.trailing, q.kind ≠ .newline
  ends : CommentsEndAll (allTokens x)
  unbroken : Verif.Parser.Unbroken (allTokens x)
  crisp : Lined text → (∀ l ∈ leaves root, Apart text l.start ∧ Apart text l.stop) →
    ∀ t ∈ allTokens x, ∀ q ∈ t.leading ++ t.trailing, Crisp q.text
  own : ∀ t ∈ (allTokens x).tail, Verif.Parser.CommentsOnOwnLine t.leading

theorem parsed {text : List Byte} {root : TsNode} {p : Exprs} (h : Agrees text root p) :
    ∃ x, Parsed text root p x := by
  obtain ⟨trees, eof, hd, tl, h1, h2, h3, h4, h5, h6, h7, h8, h9, h10, h11, h12⟩ :=
    parse_ok text root h.shaped h.stop h.tiled
  rw [Verif.Whole.all_flt (clean_none _), flt_items] at h2
  obtain ⟨y, rfl, hy⟩ := fit_exprs p h.written.2 h2
  rw [exprTrees_tokens] at h3
  rw [toks_root h.written, ← h3, List.map_append] at h4
  have h4 : y.tokens.map kt ++ [kt eof] = p.tokens.map kt ++ [(.eof, [])] := h4
  obtain ⟨e1, e2⟩ := List.append_inj h4 (by simp [hy.1])
  simp only [List.cons.injEq, and_true, kt, Prod.mk.injEq] at e2
  rw [← h3] at h5 h6 h9 h10 h12
  refine ⟨⟨{}, y, eof⟩, h1, rfl, hy.2 e1, e1, e2.1, e2.2, h11, h5, h6, ?_, ?_, h9, h10 h.strings, h12, ?_⟩
  · intro t ht
    simp only [allTokens, h3, List.mem_cons] at ht
    rcases ht with rfl | ht
    · exact h7.pieces
    · exact (h8 t ht).pieces
  · intro t ht q hq
    simp only [allTokens, h3, List.mem_cons] at ht
    rcases ht with rfl | ht
    · exact (h7.trailing q hq).1
    · exact ((h8 t ht).trailing q hq).1
  · intro t ht
    simp only [allTokens, h3, List.tail_cons] at ht
    exact (h8 t ht).leading rfl

theorem kt_outTok {as bs : List Token} (h : as.map kt = bs.map kt) : as.map outTok = bs.map outTok := by
  have : ∀ as : List Token, as.map outTok = (as.map kt).map (fun q => outTok ⟨q.1, [], q.2, []⟩) := by
    intro as
    rw [List.map_map]
    exact List.map_congr_left fun t _ => rfl
  rw [this as, h, ← this]

theorem tiled_no_newline {text : List Byte} {stop : Nat} : ∀ {ls : List Leaf} {pos : Nat} {c : Bool},
    Tiled text stop pos c ls → ∀ l ∈ ls, l.isComment = true → 10 ∉ between text l.start l.stop
  | [], _, _, _, l, hl, _ => by cases hl
  | k :: ls, pos, c, h, l, hl, hc => by
    obtain ⟨-, -, -, -, -, h6, h7⟩ := h
    rcases List.mem_cons.1 hl with rfl | hl
    · exact h6 hc
    · exact tiled_no_newline h7 l hl hc

theorem tiled_bounds {text : List Byte} {stop : Nat} : ∀ {ls : List Leaf} {pos : Nat} {c : Bool},
    Tiled text stop pos c ls → ∀ l ∈ ls, l.start ≤ l.stop ∧ l.stop ≤ text.length
  | [], _, _, _, l, hl => by cases hl
  | k :: ls, pos, c, h, l, hl => by
    obtain ⟨-, h2, h3, -, -, -, h7⟩ := h
    rcases List.mem_cons.1 hl with rfl | hl
    · exact ⟨Nat.le_of_lt h2, h3⟩
    · exact tiled_bounds h7 l hl

theorem mem_full {ts : List Token} {t : Token} (ht : t ∈ ts) {q : Piece} (hq : q ∈ t.leading ++ t.trailing)
    {b : Byte} (hb : b ∈ q.text) : b ∈ (ts.map Token.full).flatten := by
  refine List.mem_flatten.2 ⟨t.full, List.mem_map_of_mem ht, ?_⟩
  unfold Token.full Syntax.piecesText
  rcases List.mem_append.1 hq with hq | hq
  · exact List.mem_append_left _ (List.mem_append_left _ (List.mem_flatten.2 ⟨_, List.mem_map_of_mem hq, hb⟩))
  · exact List.mem_append_right _ (List.mem_flatten.2 ⟨_, List.mem_map_of_mem hq, hb⟩)

theorem mem_full_text {ts : List Token} {t : Token} (ht : t ∈ ts) {b : Byte} (hb : b ∈ t.text) :
    b ∈ (ts.map Token.full).flatten :=
  List.mem_flatten.2 ⟨t.full, List.mem_map_of_mem ht, by
    unfold Token.full; exact List.mem_append_left _ (List.mem_append_right _ hb)⟩

theorem pieces_eq (ps : List Piece) : Format.piecesText ps = Syntax.piecesText ps := by
  simp [Format.piecesText, Syntax.piecesText, List.flatMap_def]

variable {text : List Byte} {root : TsNode} {p : Exprs} {x : Root}

theorem Parsed.newline (hp : Parsed text root p x) (hl : LineEnds text root) {t : Token} (ht : t ∈ allTokens x)
    {q : Piece} (hq : q ∈ t.leading ++ t.trailing) (hk : q.kind = .newline) :
    q.text = [10] ∨ q.text = [13, 10] := by
  have h := hp.pieces t ht q hq
  have hc := hp.crisp hl.lined hl.apart t ht q hq
  unfold PieceOk at h
  rw [hk] at h
  simp only [List.mem_cons, List.not_mem_nil, or_false] at h
  rcases h with h | h | h
  · exact .inl h
  · rw [h] at hc
    rcases hc with hc | hc
    · simp at hc
    · cases hc
  · exact .inr h

/-- Pieces of trivia in a text with proper line ends. -/
def Piece.fine (q : Piece) : Prop :=
  (q.kind = .newline → q.text = [10] ∨ q.text = [13, 10]) ∧ (q.kind ≠ .newline → 13 ∉ q.text)

theorem Parsed.comment (ha : Agrees text root p) (hp : Parsed text root p x) {t : Token} (ht : t ∈ allTokens x)
    {q : Piece} (hq : q ∈ t.leading ++ t.trailing) (hk : q.kind = .comment) :
    q.text.head? = some 35 ∧ 10 ∉ q.text := by
  have hm : q.text ∈ ((allTokens x).map tokenComments).flatten := by
    refine List.mem_flatten.2 ⟨tokenComments t, List.mem_map_of_mem ht, ?_⟩
    unfold tokenComments pieceComments
    exact List.mem_map_of_mem (List.mem_filter.2 ⟨hq, by simp [hk]⟩)
  rw [hp.comments] at hm
  obtain ⟨c, hc, he⟩ := List.mem_map.1 hm
  unfold leafComments at hc
  obtain ⟨l, hl, rfl⟩ := List.mem_map.1 hc
  obtain ⟨hl, hlc⟩ := List.mem_filter.1 hl
  rw [← he]
  exact ⟨ha.comments l hl hlc, tiled_no_newline ha.tiled l hl hlc⟩

theorem Parsed.spelled (ha : Agrees text root p) (hp : Parsed text root p x) {t : Token} (ht : t ∈ allTokens x)
    {q : Piece} (hq : q ∈ t.leading ++ t.trailing) : Piece.spelled q = true := by
  unfold Piece.spelled
  have h := hp.pieces t ht q hq
  cases hk : q.kind with
  | newline => rfl
  | whitespace =>
    simp only [List.all_eq_true]
    intro b hb
    unfold PieceOk at h
    rw [hk] at h
    obtain ⟨h1, h2⟩ := h b hb
    revert h1 h2
    simp only [Verif.Parser.isGapByte, List.contains_eq_mem, List.mem_cons, List.not_mem_nil, or_false,
      decide_eq_true_eq]
    rintro (rfl | rfl | rfl | rfl | rfl | rfl | rfl) h <;> first | rfl | exact absurd rfl h
  | comment =>
    obtain ⟨h1, h2⟩ := hp.comment ha ht hq hk
    simp [h1, h2]

theorem Parsed.trivia (ha : Agrees text root p) (hp : Parsed text root p x) :
    ∀ q ∈ x.es.tokens.flatMap (fun t => t.leading ++ t.trailing) ++ x.eof.leading, Piece.spelled q = true := by
  intro q hq
  rcases List.mem_append.1 hq with hq | hq
  · obtain ⟨t, ht, hq⟩ := List.mem_flatMap.1 hq
    exact hp.spelled ha (t := t) (List.mem_append_left _ ht) hq
  · exact hp.spelled ha (t := x.eof) (by simp [allTokens]) (List.mem_append_left _ hq)

theorem whole_unbroken {eof : Token} : ∀ {ts : List Token}, Verif.Parser.Unbroken (ts ++ [eof]) →
    wholeStrings ts = true
  | [], _ => rfl
  | t :: ts, h => by
    obtain ⟨h1, h2⟩ := h
    rw [wholeStrings.eq_def]
    simp only [whole_unbroken h2, Bool.and_true]
    by_cases hk : t.kind = .stringOpen ∨ t.kind = .stringContent
    · obtain ⟨e1, u, r, e2, e3, e4⟩ := h1 hk
      cases ts with
      | nil =>
        cases e2
        exact absurd rfl e4
      | cons v ts =>
        cases e2
        simp [e1, e3]
    · have : (t.kind == .stringOpen || t.kind == .stringContent) = false := by
        simpa using hk
      rw [this]; rfl

theorem Parsed.fine (ha : Agrees text root p) (hp : Parsed text root p x) (hl : LineEnds text root) {t : Token}
    (ht : t ∈ allTokens x) {q : Piece} (hq : q ∈ t.leading ++ t.trailing) : Piece.fine q := by
  refine ⟨fun hk => hp.newline hl ht hq hk, fun hk => ?_⟩
  rcases hp.crisp hl.lined hl.apart t ht q hq with h | h
  · exact h
  · exfalso
    cases hk' : q.kind with
    | newline => exact hk hk'
    | whitespace =>
      have := hp.pieces t ht q hq
      unfold PieceOk at this
      rw [hk'] at this
      exact (this 10 (by rw [h]; simp)).2 rfl
    | comment => exact (hp.comment ha ht hq hk').2 (by rw [h]; simp)

/-! ## Line ends -/

theorem Lined.last {a : List Byte} (h : Lined a) : ∀ u, a ≠ u ++ [13] := by
  intro u e
  obtain ⟨c, hc⟩ := h u [] e
  cases hc

theorem lf_append {a : List Byte} (h : ∀ u, a ≠ u ++ [13]) (b : List Byte) : lf (a ++ b) = lf a ++ lf b := by
  unfold lf
  fun_induction LineEnding.replaceCrlf (13 : Byte) 10 a with
  | case1 => rfl
  | case2 c =>
    cases b with
    | nil => simp [LineEnding.replaceCrlf]
    | cons d b =>
      rw [List.singleton_append, LineEnding.replaceCrlf, if_neg]
      · rfl
      · rintro ⟨rfl, -⟩
        exact h [] rfl
  | case3 a b' rest hab ih =>
    obtain ⟨rfl, rfl⟩ := hab
    have := ih fun u e => h (13 :: 10 :: u) (by rw [e]; rfl)
    simp only [List.cons_append, LineEnding.replaceCrlf, this, and_self, if_true]
  | case4 a b' rest hab ih =>
    have := ih fun u e => h (a :: u) (by rw [e]; rfl)
    simp only [List.cons_append] at this ⊢
    rw [LineEnding.replaceCrlf, if_neg hab, this]

theorem lf_no13 {a : List Byte} (h : 13 ∉ a) : lf a = a :=
  LineEnding.findCrlf_none _ _ _ ((LineEnding.findCrlf_none_iff _ _ _).mpr fun ⟨u, v, e⟩ => h (by rw [e]; simp))

theorem lined_no13 {a : List Byte} (h : 13 ∉ a) : Lined a := by
  intro u v e
  exact absurd (by rw [e]; simp) h

theorem no13_last {a : List Byte} (h : 13 ∉ a) : ∀ u, a ≠ u ++ [13] := by
  rintro u rfl
  exact h (by simp)

theorem lf_lined {a : List Byte} (h : Lined a) : 13 ∉ lf a := by
  unfold lf
  fun_induction LineEnding.replaceCrlf (13 : Byte) 10 a with
  | case1 => simp
  | case2 c =>
    intro hm
    exact Lined.last h [] (by rw [List.mem_singleton.1 hm]; rfl)
  | case3 a b rest hab ih =>
    have := ih (Verif.Parser.Lined.tail (Verif.Parser.Lined.tail h))
    simpa using this
  | case4 a b rest hab ih =>
    have := ih (Verif.Parser.Lined.tail h)
    intro hm
    rcases List.mem_cons.1 hm with rfl | hm
    · obtain ⟨c, hc⟩ := h [] (b :: rest) rfl
      cases hc
      exact hab ⟨rfl, rfl⟩
    · exact this hm

theorem lf_lineEnd {a : List Byte} (h : LineEnd a) : ∃ r, lf a = 10 :: r := by
  obtain ⟨r, rfl | rfl⟩ := h
  · refine ⟨lf r, ?_⟩
    rw [← List.singleton_append, lf_append (no13_last (by simp)), lf_no13 (by simp)]
    rfl
  · refine ⟨lf r, ?_⟩
    unfold lf
    rw [LineEnding.replaceCrlf, if_pos ⟨rfl, rfl⟩]

theorem lf_ne {a : List Byte} (h : lf a ≠ []) : a ≠ [] := by
  rintro rfl
  exact h rfl

theorem outTok_lf {t : Token} (h : t.kind ≠ .stringContent → 13 ∉ t.text) : (outTok t).text = lf t.text := by
  unfold outTok
  dsimp only
  split
  · unfold LineEnding.normalizeRef LineEnding.infer
    cases hf : LineEnding.findCrlf (13 : Byte) 10 t.text with
    | none => exact (LineEnding.findCrlf_none _ _ _ hf).symm
    | some i =>
      simp only
      rw [LineEnding.normalize_eq _ _ (by decide)]
      rfl
  · next hk => exact (lf_no13 (h hk)).symm

theorem piecesText_cons (q : Piece) (ps : List Piece) :
    Syntax.piecesText (q :: ps) = q.text ++ Syntax.piecesText ps := by
  simp [Syntax.piecesText]

theorem Piece.fine.last {q : Piece} (h : Piece.fine q) : ∀ u, q.text ≠ u ++ [13] := by
  by_cases hk : q.kind = .newline
  · intro u e
    rcases h.1 hk with h | h
    · have := congrArg List.getLast? (h.symm.trans e)
      simp at this
    · have := congrArg List.getLast? (h.symm.trans e)
      simp at this
  · exact no13_last (h.2 hk)

theorem render_lf {ps : List Piece} (h : ∀ q ∈ ps, Piece.fine q) (b : List Byte) :
    render (ps.map pieceEl) ++ lf b = lf (Syntax.piecesText ps ++ b) := by
  induction ps with
  | nil => rfl
  | cons q ps ih =>
    have hq := h q (by simp)
    have he : render [pieceEl q] = lf q.text := by
      unfold pieceEl
      split
      · next hk => rcases hq.1 hk with h | h <;> rw [h] <;> rfl
      · next hk => rw [lf_no13 (hq.2 (by rw [hk]; nofun))]; simp [render]
      · next hk => rw [lf_no13 (hq.2 (by rw [hk]; nofun))]; simp [render]
    rw [piecesText_cons, List.append_assoc, lf_append hq.last, ← ih fun q hq => h q (by simp [hq]), List.map_cons,
      ← List.singleton_append, render_append, he, List.append_assoc]

/-- Tokens in a text with proper line ends. -/
def Token.fine (t : Token) : Prop :=
  (t.kind ≠ .stringContent → 13 ∉ t.text) ∧ Lined t.text

theorem Parsed.token (ha : Agrees text root p) (hp : Parsed text root p x) (hl : LineEnds text root) {t : Token}
    (ht : t ∈ x.es.tokens) : Token.fine t := by
  have h1 : kt t ∈ Verif.Parser.leafTexts text (leaves root) := by
    rw [toks_root ha.written, ← hp.tokens]
    exact List.mem_map_of_mem ht
  unfold Verif.Parser.leafTexts at h1
  obtain ⟨l, h2, h3⟩ := List.mem_map.1 h1
  obtain ⟨h4, h5⟩ := List.mem_filter.1 h2
  unfold kt at h3
  simp only [Prod.mk.injEq] at h3
  obtain ⟨h6, h7⟩ := h3
  have h8 := tiled_bounds ha.tiled l h4
  unfold Token.fine
  rw [← h6, ← h7]
  exact ⟨hl.tokens l h4 (by simpa using h5), Verif.Parser.lined_between hl.lined h8.1 h8.2 (hl.apart l h4).2⟩

theorem full_lf {t : Token} (h : Token.fine t) (h1 : ∀ q ∈ t.leading ++ t.trailing, Piece.fine q) (b : List Byte) :
    render (t.leading.map pieceEl) ++ ((outTok t).text ++ (render (t.trailing.map pieceEl) ++ lf b)) =
      lf (t.full ++ b) := by
  rw [render_lf fun q hq => h1 q (by simp [hq]), outTok_lf h.1, ← lf_append (Lined.last h.2),
    render_lf fun q hq => h1 q (by simp [hq])]
  simp [Token.full]

theorem render_raw {eof : Token} : ∀ {ts : List Token}, (∀ t ∈ ts ++ [eof], ∀ q ∈ t.leading ++ t.trailing,
      Piece.fine q) → (∀ t ∈ ts, Token.fine t) →
    render (rawFile ts eof) = lf ((ts.map Token.full).flatten ++ Syntax.piecesText eof.leading)
  | [], h, _ => by
    have := render_lf (ps := eof.leading) (fun q hq => h eof (by simp) q (by simp [hq])) []
    rw [rawFile_nil]
    simpa [lf, LineEnding.replaceCrlf] using this
  | t :: ts, h, h' => by
    rw [rawFile_tok, render_append, render, render_append,
      render_raw (fun t ht => h t (List.mem_cons_of_mem _ ht)) (fun t ht => h' t (by simp [ht])),
      full_lf (h' t (by simp)) (fun q hq => h t (by simp) q hq)]
    simp

theorem Parsed.text_eq (ha : Agrees text root p) (hp : Parsed text root p x) (hl : LineEnds text root) :
    x.text = lf text := by
  unfold Root.text
  rw [render_raw]
  · have := hp.bytes
    simp only [allTokens, List.map_append, List.flatten_append, List.map_cons, List.map_nil,
      List.flatten_cons, List.flatten_nil, Token.full, hp.empty, hp.trailing, Syntax.piecesText,
      List.append_nil] at this
    exact congrArg lf this
  · exact fun t ht q hq => hp.fine ha hl ht hq
  · exact fun t ht => hp.token ha hl ht

theorem ended_pieces {es : List El} {b : List Byte} (hb : render es = lf b) (he : Ended es) : ∀ {ps : List Piece},
    (∀ q ∈ ps, Piece.fine q) → CommentsEnd ps b → Ended (ps.map pieceEl ++ es)
  | [], _, _ => he
  | q :: ps, hn, hc => by
    have ih := ended_pieces hb he (fun q hq => hn q (List.mem_cons_of_mem _ hq)) hc.2
    rw [List.map_cons, List.cons_append]
    cases hk : q.kind with
    | newline => rw [show pieceEl q = .rnl by simp [pieceEl, hk]]; exact ih
    | whitespace => rw [show pieceEl q = .blank q.text by simp [pieceEl, hk]]; exact ih
    | comment =>
      rw [show pieceEl q = .comment q.text by simp [pieceEl, hk]]
      refine ⟨?_, ih⟩
      rw [render_append, hb, render_lf fun q hq => hn q (List.mem_cons_of_mem _ hq)]
      intro c h
      have hne := lf_ne (a := Syntax.piecesText ps ++ b) (by intro h0; rw [h0] at h; cases h)
      obtain ⟨r, hr⟩ := lf_lineEnd (hc.1 hk hne)
      rw [hr] at h
      exact (Option.some.inj h).symm

theorem ended_raw {eof : Token} (h0 : eof.text = []) (h1 : eof.trailing = []) : ∀ {ts : List Token},
    (∀ t ∈ ts ++ [eof], ∀ q ∈ t.leading ++ t.trailing, Piece.fine q) →
    (∀ t ∈ ts, Token.fine t) → CommentsEndAll (ts ++ [eof]) → Ended (rawFile ts eof)
  | [], hn, _, hc => by
    rw [rawFile_nil, ← List.append_nil (List.map _ _)]
    refine ended_pieces (es := []) (b := []) rfl trivial (fun q hq => hn eof (by simp) q (by simp [hq])) ?_
    have := hc.1
    rw [h0, h1] at this
    exact this
  | t :: ts, hn, h', hc => by
    rw [List.cons_append] at hc
    obtain ⟨c1, c2, c3⟩ := hc
    have hn' := fun t (ht : t ∈ ts ++ [eof]) => hn t (List.mem_cons_of_mem _ ht)
    have ih := ended_raw h0 h1 (ts := ts) hn' (fun t ht => h' t (by simp [ht])) c3
    have hr := render_raw (ts := ts) hn' (fun t ht => h' t (by simp [ht]))
    have hf : ((ts ++ [eof]).map Token.full).flatten =
        (ts.map Token.full).flatten ++ Syntax.piecesText eof.leading := by
      simp [Token.full, h0, h1, Syntax.piecesText]
    rw [hf] at c1 c2
    have hl : ∀ q ∈ t.leading, Piece.fine q := fun q hq => hn t (by simp) q (by simp [hq])
    have ht : ∀ q ∈ t.trailing, Piece.fine q := fun q hq => hn t (by simp) q (by simp [hq])
    have htk := h' t (by simp)
    rw [rawFile_tok]
    refine ended_pieces (es := .tok (outTok t) :: (t.trailing.map pieceEl ++ rawFile ts eof)) ?_ ?_ hl c1
    · rw [render, render_append, hr, render_lf ht, outTok_lf htk.1, ← lf_append (Lined.last htk.2),
        List.append_assoc]
    · exact ended_pieces hr ih ht c2

/-- The parser's tree of a text that R reads: it is the program that R reads, and belongs to the text. -/
theorem parsed_program (ha : Agrees text root p) (hr : readText (lf text) = some p.bare) (hl : LineEnds text root)
    (hp : Parsed text root p x) : x.text = lf text ∧ x.es.bare = p.bare ∧ x.Spelled ∧ x.es.gram = true ∧
      Fits (shapes .top .free x.es) (seen .fresh (rawFile x.es.tokens x.eof)) := by
  unfold readText at hr
  obtain ⟨S, hS, hr⟩ := Option.bind_eq_some_iff.1 hr
  obtain ⟨g1, g2, g3⟩ := readFile_sound (lex_plainEnds (lf_lined hl.lined) hS) hr
  have ht := hp.text_eq ha hl
  have hb : x.es.bare = p.bare := hp.bare
  have htk : x.es.tokens.map outTok = p.bare.tokens.map outTok := by
    rw [← hb, bares_tokens, List.map_map]
    refine List.map_congr_left fun t ht => ?_
    have h1 := hp.token ha hl ht
    have h2 : 13 ∉ (outTok t).text := by rw [outTok_lf h1.1]; exact lf_lined h1.2
    have h3 : (outTok (bareTok t)).text = (outTok t).text := by
      rw [outTok_lf fun _ => h2]; exact lf_no13 h2
    exact (Tok.mk.injEq .. ▸ ⟨rfl, h3.symm⟩ : outTok t = outTok (bareTok t))
  have hw := whole_unbroken hp.unbroken
  have htr := hp.trivia ha
  have hseen : S = seen .fresh (rawFile x.es.tokens x.eof) := by
    refine lex_whole (rawFile_trivial _ _ htr)
      (ended_raw hp.empty hp.trailing (fun t ht q hq => hp.fine ha hl ht hq) (fun t ht => hp.token ha hl ht) hp.ends)
      (unbroken_raw _ _ hw false nofun) (by rw [← ht] at hS; exact hS) ?_
    rw [printedToks_rawFile, htk, fits_toks g2, shapes_toks]
  refine ⟨ht, hb, ⟨htr, hw, ?_⟩, ?_, ?_⟩
  · rw [ht, hS, hseen]
  · rw [← bares_gram, hb, g1]
  · rw [same_shapes .top .free (hb.trans g3.symm) htk, ← hseen]
    exact g2

end Verif.Whole
