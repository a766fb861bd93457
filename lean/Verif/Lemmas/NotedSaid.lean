import Verif.Lemmas.NotedRew
import Verif.Lemmas.NotedPut
import Verif.Lemmas.Skim

/-!
# Comments for the statements that stand for them

The program with comments whose statements for comments (`Verif/Lemmas/NotedTree.lean`) are those of a
given program.
-/

namespace Verif.Format
open Verif.Syntax

variable {o : Opts} {N : Nat} {w : Bool}

/-! ## Tokens -/

/-- Only line breaks before the token. -/
def Trim (t : Token) : Prop := hush t = t ∧ (outTok t).text = t.text

theorem Trim.trailing {t : Token} (h : Trim t) : t.trailing = [] := by
  rw [← h.1]; rfl
theorem Trim.leading {t : Token} (h : Trim t) : t.leading = List.replicate (linesBeforeToken t) nlPiece := by
  conv => lhs; rw [← h.1]
  rfl
theorem Trim.quiet {t : Token} (h : Trim t) : hasComment t.leading = false := by
  rw [h.leading]; exact nls_comment _

/-- Line breaks around tokens that stand for comments. -/
structure Neatly (N : Nat) (f : Bool) (ts : List Token) : Prop where
  trim : ∀ t ∈ ts, Trim t
  next : ∀ a t u b, ts = a ++ t :: u :: b → N < (outTok t).text.length → 1 ≤ linesBeforeToken u ∧ linesBeforeToken u ≤ 2
  own : ∀ a t b, ts = a ++ t :: b → N < (outTok t).text.length → (f = true ∧ a = []) ∨ 1 ≤ linesBeforeToken t

theorem Neatly.left {f : Bool} {a b : List Token} (h : Neatly N f (a ++ b)) : Neatly N f a where
  trim t ht := h.trim t (by simp [ht])
  next c t u d e := h.next c t u (d ++ b) (by simp [e])
  own c t d e := h.own c t (d ++ b) (by simp [e])

theorem Neatly.right {f : Bool} {a b : List Token} (h : Neatly N f (a ++ b)) : Neatly N f b where
  trim t ht := h.trim t (by simp [ht])
  next c t u d e := h.next (a ++ c) t u d (by simp [e])
  own c t d e hn := by
    rcases h.own (a ++ c) t d (by simp [e]) hn with h | h
    · exact .inl ⟨h.1, (List.append_eq_nil_iff.1 h.2).2⟩
    · exact .inr h

theorem Neatly.tail {f f' : Bool} {t : Token} {a : List Token} (h : Neatly N f (t :: a)) : Neatly N f' a where
  trim u hu := h.trim u (by simp [hu])
  next c u v d e := h.next (t :: c) u v d (by simp [e])
  own c u d e hn := by
    rcases h.own (t :: c) u d (by simp [e]) hn with h | h
    · exact absurd h.2 (by simp)
    · exact .inr h

theorem Neatly.head {f : Bool} {t : Token} {a : List Token} (h : Neatly N f (t :: a)) : Trim t := h.trim t (by simp)

/-! ## The text -/

/-- Source text. -/
def rawTok (t : Token) : List El := t.leading.map pieceEl ++ [.tok (outTok t)] ++ t.trailing.map pieceEl

/-- Source text. -/
def raws (ts : List Token) : List El := ts.flatMap rawTok

theorem tell_piece (p : Piece) : (pieceEl p).tell N = pieceEl p := by
  unfold pieceEl
  cases p.kind <;> rfl

theorem tell_pieces (ps : List Piece) : (ps.map pieceEl).map (El.tell N) = ps.map pieceEl := by
  rw [List.map_map]
  apply List.map_congr_left
  intro p _
  exact tell_piece p

theorem tell_raw {t : Token} (h : Short N t) : (rawTok t).map (El.tell N) = rawTok t := by
  simp only [rawTok, List.map_append, tell_pieces, List.map_cons, List.map_nil, tell_short h]

/-- The tokens have the text of the others, with comments for the tokens that stand for them. -/
structure Told (N : Nat) (ts0 ts : List Token) : Prop where
  trail : ∀ t ∈ ts, t.trailing = []
  text : raws ts = (raws ts0).map (El.tell N)
  own : ∀ t ∈ ts, Verif.Parser.CommentsOnOwnLine t.leading

theorem told_nil : Told N [] [] := ⟨nofun, rfl, nofun⟩

theorem Told.append {a0 a b0 b : List Token} (h1 : Told N a0 a) (h2 : Told N b0 b) : Told N (a0 ++ b0) (a ++ b) where
  trail t ht := (List.mem_append.1 ht).elim (h1.trail t) (h2.trail t)
  text := by
    have e1 := h1.text
    have e2 := h2.text
    unfold raws at *
    rw [List.flatMap_append, e1, e2, List.flatMap_append, List.map_append]
  own t ht := (List.mem_append.1 ht).elim (h1.own t) (h2.own t)

theorem own_free {ps : List Piece} (h : hasComment ps = false) : Verif.Parser.CommentsOnOwnLine ps := by
  intro A c B e hc
  have := List.any_eq_false.1 h c (by rw [e]; simp)
  simp [hc] at this

theorem Told.cons {t : Token} {a0 a : List Token} (ht : Trim t) (hs : Short N t) (h : Told N a0 a) :
    Told N (t :: a0) (t :: a) := by
  have h1 : Told N [t] [t] := ⟨by simp [ht.trailing], by simp [raws, tell_raw hs], by
    intro u hu
    cases List.mem_singleton.1 hu
    exact own_free ht.quiet⟩
  exact h1.append h

theorem told_one {t : Token} (ht : Trim t) (hs : Short N t) : Told N [t] [t] := told_nil.cons ht hs

/-! ## Comments before a statement -/

/-- Comments that lead a statement: the line breaks before each and its text. -/
def pieces (P : List (Nat × List Byte)) : List Piece :=
  P.flatMap (fun p => List.replicate p.1 nlPiece ++ [⟨.comment, p.2⟩])

/-- Line breaks before the first comment or, if there is none, before the statement. -/
def nextGap (P : List (Nat × List Byte)) (m : Nat) : Nat :=
  match P with
  | [] => m
  | p :: _ => p.1

def scans (own : Bool) (m : Nat) : List (Nat × List Byte) → List Scanned
  | [] => []
  | (n, c) :: P => ⟨c, false, own || decide (0 < n), n, nextGap P m⟩ :: scans (own || decide (0 < n)) m P

theorem scan_nls : ∀ (k n : Nat) (own : Bool) (ps : List Piece),
    scan 0 n own (List.replicate k nlPiece ++ ps) = scan 0 (n + k) (own || decide (0 < k)) ps
  | 0, n, own, ps => by simp
  | k + 1, n, own, ps => by
    rw [List.replicate_succ, List.cons_append, scan]
    simp only [nlPiece]
    have := scan_nls k (n + 1) true ps
    simp only [nlPiece] at this
    rw [this]
    simp
    congr 1
    omega

theorem gap_count (m : Nat) (P : List (Nat × List Byte)) :
    (((pieces P ++ List.replicate m nlPiece).takeWhile (fun p => p.kind != .comment)).filter
      (fun p => p.kind == .newline)).length = nextGap P m := by
  have key : ∀ k (ps : List Piece), (ps = [] ∨ ∃ c qs, ps = ⟨.comment, c⟩ :: qs) →
      (((List.replicate k nlPiece ++ ps).takeWhile (fun p => p.kind != .comment)).filter
        (fun p => p.kind == .newline)).length = k := by
    intro k ps hps
    have : (List.replicate k nlPiece ++ ps).takeWhile (fun p => p.kind != .comment) = List.replicate k nlPiece := by
      induction k with
      | zero =>
        rcases hps with rfl | ⟨c, qs, rfl⟩
        · rfl
        · simp
      | succ k ih =>
        rw [List.replicate_succ, List.cons_append, List.takeWhile_cons, ih]
        rfl
    rw [this, filter_nls, List.length_replicate]
  cases P with
  | nil =>
    have := key m [] (.inl rfl)
    simpa [pieces, nextGap] using this
  | cons p P =>
    have := key p.1 (⟨.comment, p.2⟩ :: (pieces P ++ List.replicate m nlPiece)) (.inr ⟨_, _, rfl⟩)
    simpa [pieces, nextGap] using this

theorem scan_pieces (m : Nat) : ∀ (P : List (Nat × List Byte)) (own : Bool),
    scan 0 0 own (pieces P ++ List.replicate m nlPiece) = scans own m P
  | [], own => by
    have := scan_free (List.replicate m nlPiece) 0 0 own (nls_comment m)
    simpa [pieces, scans] using this
  | (n, c) :: P, own => by
    have h1 : pieces ((n, c) :: P) ++ List.replicate m nlPiece =
        List.replicate n nlPiece ++ (⟨.comment, c⟩ :: (pieces P ++ List.replicate m nlPiece)) := by
      simp [pieces]
    rw [h1, scan_nls, scan, scans]
    simp only [Nat.zero_add, gap_count, scan_pieces m P]
    simp

/-- Comments are followed by one line break or two. -/
def GapOk (m : Nat) : List (Nat × List Byte) → Prop
  | [] => True
  | _ :: P => (1 ≤ nextGap P m ∧ nextGap P m ≤ 2) ∧ GapOk m P

theorem nextGap_snoc (P : List (Nat × List Byte)) (n m : Nat) (c : List Byte) :
    nextGap (P ++ [(n, c)]) m = nextGap P n := by
  cases P <;> rfl

theorem gapOk_snoc {n m : Nat} {c : List Byte} (hm : 1 ≤ m ∧ m ≤ 2) : ∀ {P : List (Nat × List Byte)}, GapOk n P →
    GapOk m (P ++ [(n, c)])
  | [], _ => ⟨hm, trivial⟩
  | p :: P, h => ⟨by have h1 := h.1; rw [← nextGap_snoc P n m c] at h1; exact h1, gapOk_snoc hm h.2⟩

/-- Statements that stand for comments. -/
def voices (N : Nat) (P : List (Nat × List Byte)) (es : Exprs) : Exprs :=
  P.foldr (fun p es => .cons (noteExpr N p.1 p.2) es) es

theorem voices_snoc (P : List (Nat × List Byte)) (n : Nat) (c : List Byte) (es : Exprs) :
    voices N (P ++ [(n, c)]) es = voices N P (.cons (noteExpr N n c) es) := by
  simp [voices]

theorem notes_voices {k : Nat → Exprs} {m : Nat} : ∀ (P : List (Nat × List Byte)) (own : Bool), GapOk m P →
    notes N (nextGap P m) ((scans own m P).map (fun c => ⟨c.text, c.before, c.after, false⟩)) k = voices N P (k m)
  | [], own, _ => rfl
  | (n, c) :: P, own, h => by
    have hg : Comment.gap ⟨c, n, nextGap P m, false⟩ = nextGap P m := by
      simp only [Comment.gap]
      have := h.1
      split <;> omega
    simp only [scans, List.map_cons, notes, hg, notes_voices P _ h.2]
    rfl

theorem own_scans {m : Nat} : ∀ (P : List (Nat × List Byte)) (own : Bool), (own = true ∨ ∀ p ∈ P.head?, 1 ≤ p.1) →
    ∀ c ∈ scans own m P, c.own = true
  | [], _, _, c, hc => by cases hc
  | (n, x) :: P, own, h, c, hc => by
    have h1 : (own || decide (0 < n)) = true := by
      rcases h with rfl | h
      · rfl
      · have := h (n, x) rfl
        simp only [Bool.or_eq_true, decide_eq_true_eq]
        exact .inr this
    rcases List.mem_cons.1 hc with rfl | hc
    · exact h1
    · exact own_scans P _ (.inl h1) c hc

theorem own_lead {m : Nat} {P : List (Nat × List Byte)} (h : ∀ p ∈ P.head?, 1 ≤ p.1) :
    Verif.Parser.CommentsOnOwnLine (pieces P ++ List.replicate m nlPiece) := by
  cases P with
  | nil => exact own_free (by simpa [pieces] using nls_comment m)
  | cons p P =>
    have h1 := h p rfl
    obtain ⟨n, hn⟩ : ∃ n, p.1 = n + 1 := ⟨p.1 - 1, by omega⟩
    intro A c B e hc
    simp only [pieces, List.flatMap_cons, hn, List.replicate_succ, List.cons_append] at e
    cases A with
    | nil =>
      injection e with e1 e2
      rw [← e1] at hc
      cases hc
    | cons a A =>
      injection e with e1 e2
      exact ⟨a, by simp, by rw [← e1]; exact ⟨rfl, by simp [nlPiece]⟩⟩

theorem pieces_lines {P : List (Nat × List Byte)} {t : Token} (ht : Trim t) :
    linesBeforeToken { t with leading := pieces P ++ t.leading } = nextGap P (linesBeforeToken t) := by
  have := gap_count (linesBeforeToken t) P
  rw [← ht.leading] at this
  exact this

theorem pieces_raw {P : List (Nat × List Byte)} {t : Token} :
    rawTok { t with leading := pieces P ++ t.leading } = (pieces P).map pieceEl ++ rawTok t := by
  simp only [rawTok, List.map_append, List.append_assoc]
  rfl

theorem led_pieces {P : List (Nat × List Byte)} {t : Token} (ht : Trim t) :
    led (pieces P ++ t.leading) =
      ⟨(scans false (linesBeforeToken t) P).map (fun c => ⟨c.text, c.before, c.after, false⟩), [], []⟩ := by
  unfold led
  rw [ht.leading, scan_pieces]

theorem scans_text {m : Nat} : ∀ (P : List (Nat × List Byte)) (own : Bool), ∀ c ∈ scans own m P, ∃ p ∈ P, c.text = p.2
  | [], _, c, hc => by cases hc
  | p :: P, own, c, hc => by
    rcases List.mem_cons.1 hc with rfl | hc
    · exact ⟨p, by simp, rfl⟩
    · obtain ⟨q, hq, e⟩ := scans_text P _ c hc
      exact ⟨q, by simp [hq], e⟩

theorem pieces_led {P : List (Nat × List Byte)} {t : Token} (ht : Trim t) (hP : ∀ p ∈ P, idle o p.2) :
    (led (pieces P ++ t.leading)).Led o := by
  rw [led_pieces ht]
  refine ⟨rfl, rfl, ?_⟩
  intro c hc
  obtain ⟨d, hd, rfl⟩ := List.mem_map.1 hc
  obtain ⟨p, hp, e⟩ := scans_text _ _ d hd
  simp only [e]
  exact hP p hp

/-! ## Statements with comments before them -/

/-- More trivia before the first token. -/
def Expr.lead (L : List Piece) : Expr → Expr
  | .atom a k t => .atom a k { t with leading := L ++ t.leading }
  | .str a p c l => .str a { p with leading := L ++ p.leading } c l
  | .paren a l e r => .paren a { l with leading := L ++ l.leading } e r
  | .braced a l es r => .braced a { l with leading := L ++ l.leading } es r
  | .unary a p e => .unary a { p with leading := L ++ p.leading } e
  | .binary a x p y => .binary a (x.lead L) p y
  | .sel a k x p y => .sel a k (x.lead L) p y
  | .call a k f aa l items r => .call a k (f.lead L) aa l items r
  | .func a kw pa l items r b => .func a { kw with leading := L ++ kw.leading } pa l items r b
  | .ite a kw l c r t => .ite a { kw with leading := L ++ kw.leading } l c r t
  | .itee a kw l c r t ea el e => .itee a { kw with leading := L ++ kw.leading } l c r t ea el e
  | .for_ a kw l v i s r b => .for_ a { kw with leading := L ++ kw.leading } l v i s r b
  | .while_ a kw l c r b => .while_ a { kw with leading := L ++ kw.leading } l c r b
  | .repeat_ a kw b => .repeat_ a { kw with leading := L ++ kw.leading } b

/-- Other comments. -/
def Expr.withAnn (b : Ann) : Expr → Expr
  | .atom _ k t => .atom b k t
  | .str _ p c l => .str b p c l
  | .paren _ l e r => .paren b l e r
  | .braced _ l es r => .braced b l es r
  | .unary _ p e => .unary b p e
  | .binary _ x p y => .binary b x p y
  | .sel _ k x p y => .sel b k x p y
  | .call _ k f aa l items r => .call b k f aa l items r
  | .func _ kw pa l items r c => .func b kw pa l items r c
  | .ite _ kw l c r t => .ite b kw l c r t
  | .itee _ kw l c r t ea el e => .itee b kw l c r t ea el e
  | .for_ _ kw l v i s r c => .for_ b kw l v i s r c
  | .while_ _ kw l c r d => .while_ b kw l c r d
  | .repeat_ _ kw c => .repeat_ b kw c

theorem withAnn_ann (b : Ann) (e : Expr) : (e.withAnn b).ann = b := by cases e <;> rfl
theorem withAnn_tokens (b : Ann) (e : Expr) : (e.withAnn b).tokens = e.tokens := by cases e <;> rfl
theorem withAnn_same {e : Expr} (h : e.ann = {}) : e.withAnn {} = e := by cases e <;> cases h <;> rfl
theorem withAnn_voiced (b : Ann) (e : Expr) (h : Token → Token) : (e.withAnn b).voiced N h = e.voiced N h := by
  cases e <;> rfl
theorem withAnn_put {b : Ann} {e : Expr} (h : e.aview.Put) : (e.withAnn b).aview.Put := by cases e <;> exact h
theorem withAnn_noted {b : Ann} {e : Expr} (hb : b.Led o) (h : e.Noted o N) : (e.withAnn b).Noted o N := by
  cases e <;> exact ⟨hb, h.2⟩

theorem lead_nil : (e : Expr) → e.lead [] = e
  | .atom .. => rfl
  | .str .. => rfl
  | .paren .. => rfl
  | .braced .. => rfl
  | .unary .. => rfl
  | .binary a x p y => by rw [Expr.lead, lead_nil x]
  | .sel a k x p y => by rw [Expr.lead, lead_nil x]
  | .call a k f aa l items r => by rw [Expr.lead, lead_nil f]
  | .func .. => rfl
  | .ite .. => rfl
  | .itee .. => rfl
  | .for_ .. => rfl
  | .while_ .. => rfl
  | .repeat_ .. => rfl

theorem lead_ann (L : List Piece) (e : Expr) : (e.lead L).ann = e.ann := by cases e <;> rfl

theorem lead_tokens (L : List Piece) : (e : Expr) → ∀ {t : Token} {ts : List Token}, e.tokens = t :: ts →
    (e.lead L).tokens = { t with leading := L ++ t.leading } :: ts
  | .atom .., t, ts, h => by injection h with h1 h2; subst h1 h2; rfl
  | .str .., t, ts, h => by injection h with h1 h2; subst h1 h2; rfl
  | .paren .., t, ts, h => by injection h with h1 h2; subst h1 h2; rfl
  | .braced .., t, ts, h => by injection h with h1 h2; subst h1 h2; rfl
  | .unary .., t, ts, h => by injection h with h1 h2; subst h1 h2; rfl
  | .binary a x p y, t, ts, h => by
    obtain ⟨u, us, -, e1, -⟩ := voiced_head (N := 0) x hush
    simp only [Expr.tokens, e1, List.cons_append] at h
    injection h with h1 h2; subst h1 h2
    simp only [Expr.lead, Expr.tokens, lead_tokens L x e1, List.cons_append]
  | .sel a k x p y, t, ts, h => by
    obtain ⟨u, us, -, e1, -⟩ := voiced_head (N := 0) x hush
    simp only [Expr.tokens, e1, List.cons_append] at h
    injection h with h1 h2; subst h1 h2
    simp only [Expr.lead, Expr.tokens, lead_tokens L x e1, List.cons_append]
  | .call a k f aa l items r, t, ts, h => by
    obtain ⟨u, us, -, e1, -⟩ := voiced_head (N := 0) f hush
    simp only [Expr.tokens, e1, List.cons_append] at h
    injection h with h1 h2; subst h1 h2
    simp only [Expr.lead, Expr.tokens, lead_tokens L f e1, List.cons_append]
  | .func .., t, ts, h => by injection h with h1 h2; subst h1 h2; rfl
  | .ite .., t, ts, h => by injection h with h1 h2; subst h1 h2; rfl
  | .itee .., t, ts, h => by injection h with h1 h2; subst h1 h2; rfl
  | .for_ .., t, ts, h => by injection h with h1 h2; subst h1 h2; rfl
  | .while_ .., t, ts, h => by injection h with h1 h2; subst h1 h2; rfl
  | .repeat_ .., t, ts, h => by injection h with h1 h2; subst h1 h2; rfl

theorem lead_voiced (L : List Piece) : (e : Expr) → ∀ n, (e.lead L).voiced N (fresh n) = e.voiced N (fresh n)
  | .atom .., _ => rfl
  | .str .., _ => rfl
  | .paren .., _ => rfl
  | .braced .., _ => rfl
  | .unary .., _ => rfl
  | .binary a x p y, n => by simp only [Expr.lead, Expr.voiced, lead_voiced L x n]
  | .sel a k x p y, n => by simp only [Expr.lead, Expr.voiced, lead_voiced L x n]
  | .call a k f aa l items r, n => by simp only [Expr.lead, Expr.voiced, lead_voiced L f n]
  | .func .., _ => rfl
  | .ite .., _ => rfl
  | .itee .., _ => rfl
  | .for_ .., _ => rfl
  | .while_ .., _ => rfl
  | .repeat_ .., _ => rfl

theorem voiced_lines : (e : Expr) → e.voiced N hush = e.voiced N (fresh (linesBefore e.tokens))
  | .atom .. => rfl
  | .str .. => rfl
  | .paren .. => rfl
  | .braced .. => rfl
  | .unary .. => rfl
  | .binary a x p y => by
    have h := voiced_lines x
    obtain ⟨u, us, -, e1, -⟩ := voiced_head (N := 0) x hush
    simp only [e1, linesBefore] at h
    simp only [Expr.voiced, h, Expr.tokens, e1, List.cons_append, linesBefore]
  | .sel a k x p y => by
    have h := voiced_lines x
    obtain ⟨u, us, -, e1, -⟩ := voiced_head (N := 0) x hush
    simp only [e1, linesBefore] at h
    simp only [Expr.voiced, h, Expr.tokens, e1, List.cons_append, linesBefore]
  | .call a k f aa l items r => by
    have h := voiced_lines f
    obtain ⟨u, us, -, e1, -⟩ := voiced_head (N := 0) f hush
    simp only [e1, linesBefore] at h
    simp only [Expr.voiced, h, Expr.tokens, e1, List.cons_append, linesBefore]
  | .func .. => rfl
  | .ite .. => rfl
  | .itee .. => rfl
  | .for_ .. => rfl
  | .while_ .. => rfl
  | .repeat_ .. => rfl

theorem lead_listed (L : List Piece) (e : Expr) : listed o (e.lead L) = listed o e := by
  rw [← voiced_listed (N := 0) (mild_fresh 0), lead_voiced, voiced_listed (mild_fresh 0)]

theorem lead_noted (L : List Piece) : (e : Expr) → e.Noted o N → (e.lead L).Noted o N
  | .atom .., h => h
  | .str .., h => h
  | .paren .., h => h
  | .braced .., h => h
  | .unary .., h => h
  | .binary a x p y, h => ⟨h.1, (lead_ann L x).trans h.2.1, lead_noted L x h.2.2.1, h.2.2.2⟩
  | .sel a k x p y, h => ⟨h.1, (lead_ann L x).trans h.2.1, lead_noted L x h.2.2.1, h.2.2.2⟩
  | .call a k f aa l items r, h =>
    ⟨h.1, h.2.1, (lead_listed L f).trans h.2.2.1, (lead_ann L f).trans h.2.2.2.1, lead_noted L f h.2.2.2.2.1, h.2.2.2.2.2⟩
  | .func .., h => h
  | .ite .., h => h
  | .itee .., h => h
  | .for_ .., h => h
  | .while_ .., h => h
  | .repeat_ .., h => h

theorem aview_ann (e : Expr) : e.aview.ann = e.ann := by cases e <;> rfl

theorem aview_first (e : Expr) : e.aview.erase.first = e.tokens.head? := by
  rw [erase_view, view_first, view_tokens]

theorem lead_some (L : List Piece) (e : Expr) : (e.lead L).aview.erase.first.isSome = e.aview.erase.first.isSome := by
  obtain ⟨u, us, -, e1, -⟩ := voiced_head (N := 0) e hush
  rw [aview_first, aview_first, lead_tokens L e e1, e1]
  rfl

theorem lead_put (L : List Piece) : (e : Expr) → e.aview.Put → (e.lead L).aview.Put
  | .atom .., h => ⟨h.1, nofun, h.2.2⟩
  | .str .., h => ⟨h.1, nofun, h.2.2⟩
  | .paren .., h => ⟨h.1, nofun, h.2.2⟩
  | .braced .., h => ⟨h.1, nofun, h.2.2⟩
  | .unary .., h => ⟨h.1, nofun, h.2.2⟩
  | .binary a x p y, h => by
    obtain ⟨h1, h2, h3⟩ := h
    refine ⟨lead_put L x h1, ⟨?_, nofun⟩, ?_⟩
    · rw [aview_ann, lead_ann, ← aview_ann]; exact h2.1
    · rw [lead_some]; exact h3
  | .sel a k x p y, h => by
    obtain ⟨h1, h2, h3⟩ := h
    have hk : isStmts k.node = false := by cases k <;> rfl
    refine ⟨lead_put L x h1, ?_, ?_⟩
    · rw [hk] at h2 ⊢
      refine ⟨?_, nofun⟩
      rw [aview_ann, lead_ann, ← aview_ann]; exact h2.1
    · rw [lead_some]; exact h3
  | .call a k f aa l items r, h => by
    obtain ⟨h1, h2, h3⟩ := h
    have hk : isStmts k.node = false := by cases k <;> rfl
    refine ⟨lead_put L f h1, ?_, ?_⟩
    · rw [hk] at h2 ⊢
      refine ⟨?_, nofun⟩
      rw [aview_ann, lead_ann, ← aview_ann]; exact h2.1
    · rw [lead_some]; exact h3
  | .func .., h => ⟨h.1, nofun, h.2.2⟩
  | .ite .., h => ⟨h.1, nofun, h.2.2⟩
  | .itee .., h => ⟨h.1, nofun, h.2.2⟩
  | .for_ .., h => ⟨h.1, nofun, h.2.2⟩
  | .while_ .., h => ⟨h.1, nofun, h.2.2⟩
  | .repeat_ .., h => ⟨h.1, nofun, h.2.2⟩

end Verif.Format
