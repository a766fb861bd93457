import Verif.Lemmas.ContextTree
import Verif.Lemmas.FactoryParsed
import Verif.Lemmas.ParsedLists
import Verif.Lemmas.Splice
import Verif.Props.RangeFormat

/-!
# The text around statements
-/

namespace Verif.Format
open Verif.Syntax
open Verif.Parser (PieceOk CommentsOnOwnLine)

/-- Tokens with everything around them. -/
def rawToks (ts : List Token) : List El :=
  ts.flatMap fun t => t.leading.map pieceEl ++ [.tok (outTok t)] ++ t.trailing.map pieceEl

theorem rawFile_toks (ts : List Token) (eof : Token) : rawFile ts eof = rawToks ts ++ eof.leading.map pieceEl := rfl

theorem rawToks_append (a b : List Token) : rawToks (a ++ b) = rawToks a ++ rawToks b := by simp [rawToks]

theorem printedToks_rawToks (ts : List Token) : printedToks (rawToks ts) = ts.map outTok := by
  have := printedToks_rawFile ts ⟨.eof, [], [], []⟩
  rw [rawFile_toks] at this
  simpa using this

/-- The first and the last token. -/
theorem rawToks_ends : ∀ (ts : List Token) {k j : Token}, ts.head? = some k → ts.getLast? = some j →
    rawToks ts = k.leading.map pieceEl ++ rawEls ts ++ j.trailing.map pieceEl
  | [], k, j, h, _ => by cases h
  | [t], k, j, h, h' => by cases h; cases h'; simp [rawToks, rawEls]
  | t :: u :: ts, k, j, h, h' => by
    cases h
    have ih := rawToks_ends (u :: ts) (k := u) (j := j) rfl (by simpa using h')
    have h1 : rawToks (t :: u :: ts) = t.leading.map pieceEl ++ [.tok (outTok t)] ++ t.trailing.map pieceEl ++
        rawToks (u :: ts) := by simp [rawToks]
    rw [h1, ih, rawEls]
    simp

theorem rawEls_first {ts : List Token} (h : ts ≠ []) : ∃ t r, rawEls ts = .tok t :: r := by
  match ts, h with
  | [t], _ => exact ⟨_, _, rfl⟩
  | t :: u :: ts, _ => exact ⟨_, _, rawEls_two t u ts⟩

theorem rawEls_last : ∀ (ts : List Token), ts ≠ [] → ∃ t r, rawEls ts = r ++ [.tok t]
  | [t], _ => ⟨outTok t, [], rfl⟩
  | t :: u :: ts, _ => by
    obtain ⟨v, r, h⟩ := rawEls_last (u :: ts) (by simp)
    exact ⟨v, .tok (outTok t) :: ((t.trailing ++ u.leading).map pieceEl ++ r), by rw [rawEls_two, h]; simp⟩

theorem after_tok_ne (s : RState) (t : Tok) : s.after (.tok t) ≠ .fresh := by
  cases s <;> simp [RState.after]

/-- Blank trivia at the start of a line. -/
theorem blank_fresh {ps : List Piece} (h : ∀ p ∈ ps, p.kind ≠ .comment) : endState .fresh (ps.map pieceEl) = .fresh := by
  induction ps with
  | nil => rfl
  | cons p ps ih =>
    have h1 : RState.fresh.after (pieceEl p) = .fresh := by
      have := h p (by simp)
      unfold pieceEl
      cases hk : p.kind <;> simp_all [RState.after]
    rw [List.map_cons, endState, h1]
    exact ih fun q hq => h q (by simp [hq])

theorem newline_state {ps : List Piece} (h : ∃ p ∈ ps, p.kind = .newline) (s s' : RState) :
    endState s (ps.map pieceEl) = endState s' (ps.map pieceEl) := by
  induction ps generalizing s s' with
  | nil => obtain ⟨p, hp, -⟩ := h; cases hp
  | cons p ps ih =>
    obtain ⟨q, hq, hk⟩ := h
    rw [List.map_cons, endState, endState]
    rcases List.mem_cons.1 hq with rfl | hq
    · have : ∀ s : RState, s.after (pieceEl q) = .fresh := by intro s; simp [pieceEl, hk, RState.after]
      rw [this, this]
    · exact ih ⟨q, hq, hk⟩ _ _

theorem blank_newline {ps : List Piece} (h : ∀ p ∈ ps, p.kind ≠ .comment) (hn : ∃ p ∈ ps, p.kind = .newline) (s : RState) :
    endState s (ps.map pieceEl) = .fresh := by
  rw [newline_state hn s .fresh, blank_fresh h]

/-- The text of tokens. -/
structure Unix (t : Token) : Prop where
  text : 13 ∉ t.text
  pieces : ∀ q ∈ t.leading ++ t.trailing, PieceOk q ∧ 13 ∉ q.text

theorem render_unix {ps : List Piece} (h : ∀ q ∈ ps, PieceOk q ∧ 13 ∉ q.text) :
    render (ps.map pieceEl) = Syntax.piecesText ps := by
  refine render_pieces fun q hq hk => ?_
  obtain ⟨h1, h2⟩ := h q hq
  unfold PieceOk at h1
  rw [hk] at h1
  simp only [List.mem_cons, List.not_mem_nil, or_false] at h1
  rcases h1 with h | h | h
  · exact h
  · rw [h] at h2; simp at h2
  · rw [h] at h2; simp at h2

theorem outTok_unix {t : Token} (h : 13 ∉ t.text) : (outTok t).text = t.text := by
  rw [Whole.outTok_lf fun _ => h, Whole.lf_no13 h]

theorem render_toks {ts : List Token} (h : ∀ t ∈ ts, Unix t) : render (rawToks ts) = (ts.map Token.full).flatten := by
  induction ts with
  | nil => rfl
  | cons t ts ih =>
    have ht := h t (by simp)
    have h1 : rawToks (t :: ts) = t.leading.map pieceEl ++ (.tok (outTok t) :: (t.trailing.map pieceEl ++ rawToks ts)) := by
      simp [rawToks]
    rw [h1, render_append, render, render_append, ih fun u hu => h u (by simp [hu]),
      render_unix fun q hq => ht.pieces q (by simp [hq]), render_unix fun q hq => ht.pieces q (by simp [hq]),
      outTok_unix ht.text]
    simp [Token.full]

/-- Trivia before and after statements: `b1` before, `b2` after. -/
theorem around_toks {ts : List Token} {k j : Token} (hk : ts.head? = some k) (hj : ts.getLast? = some j) :
    ∃ M, rawToks ts = (k.leading.takeWhile RangeFormat.Piece.isBlank).map pieceEl ++ M ++
        (j.trailing.reverse.takeWhile RangeFormat.Piece.isBlank).reverse.map pieceEl ∧
      printedToks M = ts.map outTok ∧
      ((∃ t r, M = .tok t :: r) ∨ ∃ a c b, k.leading = a ++ c :: b ∧ c.kind = .comment ∧
        k.leading.takeWhile RangeFormat.Piece.isBlank = a) ∧
      ∀ s, endState s M ≠ .fresh := by
  have hne : ts ≠ [] := by intro h; rw [h] at hk; cases hk
  obtain ⟨r1, a1, a2, a3⟩ := RangeFormat.takeWhile_blank k.leading
  obtain ⟨r2, b1, b2, b3⟩ := RangeFormat.takeWhile_blank j.trailing.reverse
  have b4 : j.trailing = r2.reverse ++ (j.trailing.reverse.takeWhile RangeFormat.Piece.isBlank).reverse := by
    rw [← List.reverse_append, ← b1, List.reverse_reverse]
  refine ⟨r1.map pieceEl ++ rawEls ts ++ r2.reverse.map pieceEl, ?_, ?_, ?_, ?_⟩
  · rw [rawToks_ends ts hk hj]
    conv => lhs; rw [a1, b4]
    simp only [List.map_append, List.append_assoc]
  · rw [printedToks_append, printedToks_append, printedToks_pieces, printedToks_pieces, printedToks_rawEls]
    simp
  · cases r1 with
    | nil =>
      obtain ⟨t, r, h⟩ := rawEls_first hne
      exact .inl ⟨t, r ++ r2.reverse.map pieceEl, by rw [h]; simp⟩
    | cons c r1 => exact .inr ⟨_, c, r1, a1, a2 c rfl, rfl⟩
  · intro s
    rw [endState_append, endState_append]
    obtain ⟨t, r, h⟩ := rawEls_last ts hne
    cases r2 with
    | nil =>
      rw [h, endState_append]
      exact after_tok_ne _ t
    | cons c r2 =>
      rw [List.reverse_cons, List.map_append, endState_append]
      have hc : c.kind = .comment := b2 c rfl
      simp [pieceEl, hc, endState, RState.after]

/-- On the line of the next token nothing else follows. -/
theorem landed_newline {Q pre rest : List El} {ps : List Piece} (hQ : Q = pre ++ ps.map pieceEl ++ rest)
    (hpre : printedToks pre = []) (hn : ∃ p ∈ ps, p.kind = .newline) (s s' : RState) : seen s Q = seen s' Q := by
  rw [hQ, seen_append, seen_append, seen_append, seen_append, seen_pieces, seen_pieces, noTok_landed hpre, noTok_landed hpre,
    endState_append, endState_append, newline_state hn _ (endState s' pre)]

end Verif.Format
