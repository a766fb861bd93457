import Verif.Lemmas.PlacementCalm
import Verif.Lemmas.FormatRoot
import Verif.Lemmas.FormatRaw
import Verif.Lemmas.Comments

/-!
# Nodes that are kept as written are read as in the source
-/

namespace Verif.Format
open Verif.Syntax

/-! ## Source text without its surroundings -/

/-- The state after the trivia between two tokens. -/
def gapState (t u : Token) : RState := endState .inside ((t.trailing ++ u.leading).map pieceEl)

/-- What is seen of the tokens after `t`. -/
def tagsAfter : Token → List Token → List (Bool × Tok)
  | _, [] => []
  | t, u :: us => (decide (gapState t u = .fresh), outTok u) :: tagsAfter u us

/-- What is seen of tokens if the first one is seen with tag `f`. -/
def tags (f : Bool) : List Token → List (Bool × Tok)
  | [] => []
  | t :: ts => (f, outTok t) :: tagsAfter t ts

/-- No token is in a comment. -/
def Clean : List Token → Prop
  | t :: u :: us => gapState t u ≠ .comment ∧ Clean (u :: us)
  | _ => True

theorem seen_pieces (s : RState) (ps : List Piece) : seen s (ps.map pieceEl) = [] := by
  induction ps generalizing s with
  | nil => rfl
  | cons p ps ih =>
    rw [List.map_cons, seen]
    · rw [ih]
      rfl
    · intro t ht
      unfold pieceEl at ht
      split at ht <;> cases ht

theorem rawEls_two (t u : Token) (ts : List Token) :
    rawEls (t :: u :: ts) = .tok (outTok t) :: ((t.trailing ++ u.leading).map pieceEl ++ rawEls (u :: ts)) := by
  rw [rawEls, List.map_append]

theorem seen_raw {t : Token} {ts : List Token} (hc : Clean (t :: ts)) {s : RState} (hs : s ≠ .comment) :
    seen s (rawEls (t :: ts)) = tags (decide (s = .fresh)) (t :: ts) ∧
      endState s (rawEls (t :: ts)) = .inside := by
  induction ts generalizing t s with
  | nil =>
    simp only [rawEls, seen, endState, RState.after, if_neg hs, tags, tagsAfter]
    exact ⟨rfl, trivial⟩
  | cons u ts ih =>
    have ha : s.after (.tok (outTok t)) = .inside := if_neg hs
    rw [rawEls_two, seen, endState, ha, seen_append, endState_append, seen_pieces]
    have := ih hc.2 hc.1
    unfold gapState at this
    rw [this.1, this.2]
    refine ⟨?_, rfl⟩
    simp only [if_neg hs, tags, tagsAfter, gapState]
    rfl

theorem seen_length (s : RState) : (ts : List Token) → (seen s (rawEls ts)).length ≤ ts.length
  | [] => Nat.le_refl _
  | [t] => by
    simp only [rawEls, seen]
    split <;> simp
  | t :: u :: ts => by
    rw [rawEls_two, seen, List.length_append, seen_append, seen_pieces, List.nil_append]
    have := seen_length (endState (s.after (.tok (outTok t))) ((t.trailing ++ u.leading).map pieceEl)) (u :: ts)
    simp only [List.length_cons] at *
    split <;> simp_all <;> omega

theorem clean_of_length {t : Token} {ts : List Token} {s : RState}
    (h : (seen s (rawEls (t :: ts))).length = (t :: ts).length) : s ≠ .comment ∧ Clean (t :: ts) := by
  induction ts generalizing t s with
  | nil =>
    refine ⟨?_, trivial⟩
    rintro rfl
    simp [rawEls, seen] at h
  | cons u ts ih =>
    rw [rawEls_two, seen, List.length_append, seen_append, seen_pieces, List.nil_append] at h
    have hl := seen_length (endState (s.after (.tok (outTok t))) ((t.trailing ++ u.leading).map pieceEl))
      (u :: ts)
    have hs : s ≠ .comment := by
      rintro rfl
      simp only [if_pos, List.length_nil, Nat.zero_add] at h
      rw [h] at hl
      simp at hl
      omega
    rw [RState.after, if_neg hs] at h
    simp only [if_neg hs] at h
    have h1 := ih (t := u) (s := gapState t u) (by
      unfold gapState
      simp only [List.length_cons, List.length_nil] at h ⊢
      omega)
    exact ⟨hs, h1.1, h1.2⟩

/-! ## Parts of the source -/

/-- The tokens are read with line breaks as required, whatever is before them. -/
def SrcL (ps : List (Pos × Tok)) (ts : List Token) : Prop := Clean ts ∧ ∃ f, Fits ps (tags f ts)

theorem clean_append {a b : List Token} (h : Clean (a ++ b)) : Clean a ∧ Clean b := by
  induction a with
  | nil => exact ⟨trivial, h⟩
  | cons t a ih =>
    cases a with
    | nil =>
      refine ⟨trivial, ?_⟩
      cases b with
      | nil => trivial
      | cons u b => exact h.2
    | cons u a => exact ⟨⟨h.1, (ih h.2).1⟩, (ih h.2).2⟩

theorem tagsAfter_append (t : Token) (a b : List Token) :
    ∃ f, tagsAfter t (a ++ b) = tagsAfter t a ++ tags f b := by
  induction a generalizing t with
  | nil =>
    cases b with
    | nil => exact ⟨true, rfl⟩
    | cons u b => exact ⟨_, rfl⟩
  | cons u a ih =>
    obtain ⟨f, hf⟩ := ih u
    exact ⟨f, by rw [List.cons_append, tagsAfter, hf]; rfl⟩

theorem tags_append (f : Bool) (a b : List Token) : ∃ f', tags f (a ++ b) = tags f a ++ tags f' b := by
  cases a with
  | nil => exact ⟨f, rfl⟩
  | cons t a =>
    obtain ⟨f', hf⟩ := tagsAfter_append t a b
    exact ⟨f', by rw [List.cons_append, tags, hf]; rfl⟩

theorem tagsAfter_length (t : Token) (ts : List Token) : (tagsAfter t ts).length = ts.length := by
  induction ts generalizing t with
  | nil => rfl
  | cons u ts ih => simp [tagsAfter, ih]

theorem tags_length (f : Bool) (ts : List Token) : (tags f ts).length = ts.length := by
  cases ts with
  | nil => rfl
  | cons t ts => simp [tags, tagsAfter_length]

theorem tagsAfter_toks (t : Token) (ts : List Token) : (tagsAfter t ts).map Prod.snd = ts.map outTok := by
  induction ts generalizing t with
  | nil => rfl
  | cons u ts ih => simp [tagsAfter, ih]

theorem tags_toks (f : Bool) (ts : List Token) : (tags f ts).map Prod.snd = ts.map outTok := by
  cases ts with
  | nil => rfl
  | cons t ts => simp [tags, tagsAfter_toks]

theorem Fits.split {a b : List (Pos × Tok)} {x y : List (Bool × Tok)} (hl : a.length = x.length)
    (h : Fits (a ++ b) (x ++ y)) : Fits a x ∧ Fits b y := by
  induction a generalizing x with
  | nil =>
    cases x with
    | nil => exact ⟨trivial, h⟩
    | cons => cases hl
  | cons p a ih =>
    cases x with
    | nil => cases hl
    | cons u x =>
      have := ih (by simpa using hl) h.2.2
      exact ⟨⟨h.1, h.2.1, this.1⟩, this.2⟩

theorem SrcL.split {a b : List (Pos × Tok)} {x y : List Token} (hl : a.map Prod.snd = x.map outTok)
    (h : SrcL (a ++ b) (x ++ y)) : SrcL a x ∧ SrcL b y := by
  obtain ⟨h1, f, h2⟩ := h
  obtain ⟨f', hf⟩ := tags_append f x y
  rw [hf] at h2
  have hl' := congrArg List.length hl
  rw [List.length_map, List.length_map] at hl'
  obtain ⟨h3, h4⟩ := Fits.split (by rw [tags_length, hl']) h2
  obtain ⟨h5, h6⟩ := clean_append h1
  exact ⟨⟨h5, f, h3⟩, ⟨h6, f', h4⟩⟩

theorem SrcL.tail {p : Pos × Tok} {b : List (Pos × Tok)} {t : Token} {y : List Token}
    (h : SrcL (p :: b) (t :: y)) : SrcL b y := by
  obtain ⟨h1, f, h2⟩ := h
  obtain ⟨f', hf⟩ := tags_append f [t] y
  refine ⟨(clean_append (a := [t]) h1).2, f', ?_⟩
  have h3 : Fits ([p] ++ b) (tags f [t] ++ tags f' y) := by rw [← hf]; exact h2
  exact (Fits.split rfl h3).2

theorem SrcL.setHead {p : Pos} {ps : List (Pos × Tok)} {ts : List Token} (h : SrcL (setHead p ps) ts)
    (hf : ∀ q ∈ ps.head?, q.1 = .free) : SrcL ps ts := by
  obtain ⟨h1, f, h2⟩ := h
  refine ⟨h1, f, ?_⟩
  cases ps with
  | nil => exact h2
  | cons q ps =>
    obtain ⟨q, t⟩ := q
    have := hf (q, t) rfl
    simp only at this
    subst this
    generalize tags f ts = us at h2
    cases us with
    | nil => cases h2
    | cons u us => exact ⟨h2.1, trivial, h2.2.2⟩

/-- Source text, put somewhere. -/
theorem SrcL.raw {ps : List (Pos × Tok)} {t : Token} {ts : List Token} (h : SrcL ps (t :: ts)) :
    RawOk true (Format.setHead .free ps) (t :: ts) := by
  obtain ⟨h1, f, h2⟩ := h
  have htoks : ps.map Prod.snd = (t :: ts).map outTok := by
    rw [← tags_toks f, fits_toks h2]
  refine ⟨fun _ s hs => ?_, by rw [printedToks_rawEls, map_setHead, htoks]⟩
  obtain ⟨h3, h4⟩ := seen_raw h1 hs
  rw [h3, h4]
  refine ⟨?_, rfl⟩
  cases ps with
  | nil => cases htoks
  | cons q ps => exact ⟨h2.1, trivial, h2.2.2⟩

/-! ## Regions -/

/-- Line breaks matter less. -/
def Region.le : Region → Region → Bool
  | .top, _ => true
  | .brace, .top => false
  | .brace, _ => true
  | .paren, .paren => true
  | .paren, _ => false

/-- The requirements on line breaks are weaker. -/
def Looser : List (Pos × Tok) → List (Pos × Tok) → Prop
  | [], [] => True
  | (p, t) :: ps, (q, u) :: qs => t = u ∧ (q = p ∨ q = .free) ∧ Looser ps qs
  | _, _ => False

theorem Looser.refl : (ps : List (Pos × Tok)) → Looser ps ps
  | [] => trivial
  | _ :: ps => ⟨rfl, .inl rfl, Looser.refl ps⟩

theorem Looser.append {a b c d : List (Pos × Tok)} (h : Looser a b) (h' : Looser c d) :
    Looser (a ++ c) (b ++ d) := by
  induction a generalizing b with
  | nil => cases b with
    | nil => exact h'
    | cons => cases h
  | cons p a ih =>
    cases b with
    | nil => cases h
    | cons q b => exact ⟨h.1, h.2.1, ih h.2.2⟩

theorem Looser.setHead {p q : Pos} (hp : q = p ∨ q = .free) {a b : List (Pos × Tok)} (h : Looser a b) :
    Looser (setHead p a) (setHead q b) := by
  cases a with
  | nil => cases b with
    | nil => trivial
    | cons => cases h
  | cons u a =>
    cases b with
    | nil => cases h
    | cons v b => exact ⟨h.1, hp, h.2.2⟩

theorem Looser.fits {a b : List (Pos × Tok)} (h : Looser a b) {us : List (Bool × Tok)} (hf : Fits a us) :
    Fits b us := by
  induction a generalizing b us with
  | nil => cases b with
    | nil => exact hf
    | cons => cases h
  | cons p a ih =>
    cases b with
    | nil => cases h
    | cons q b =>
      cases us with
      | nil => cases hf
      | cons u us =>
        obtain ⟨p, t⟩ := p
        obtain ⟨q, v⟩ := q
        refine ⟨h.1.symm.trans hf.1, ?_, ih h.2.2 hf.2.2⟩
        rcases h.2.1 with h1 | h1
        · rw [h1]; exact hf.2.1
        · rw [h1]; trivial

theorem Looser.toks {a b : List (Pos × Tok)} (h : Looser a b) : a.map Prod.snd = b.map Prod.snd := by
  induction a generalizing b with
  | nil => cases b with
    | nil => rfl
    | cons => cases h
  | cons p a ih =>
    cases b with
    | nil => cases h
    | cons q b => rw [List.map_cons, List.map_cons, ih h.2.2, h.1]

theorem Looser.raw {a b : List (Pos × Tok)} (h : Looser a b) {ts : List Token} (hr : RawOk true a ts) :
    RawOk true b ts := by
  refine ⟨fun _ s hs => ?_, by rw [hr.2, h.toks]⟩
  have := hr.1 rfl s hs
  exact ⟨h.fits this.1, this.2⟩

theorem op_looser {g n : Region} (h : g.le n = true) : n.op = g.op ∨ n.op = .free := by
  cases g <;> cases n <;> first | exact .inl rfl | exact .inr rfl | cases h

theorem els_looser {g n : Region} (h : g.le n = true) : n.els = g.els ∨ n.els = .free := by
  cases g <;> cases n <;> first | exact .inl rfl | exact .inr rfl | cases h

theorem shape_looser {g n : Region} (h : g.le n = true) : (e : Expr) → Looser (shape g e) (shape n e)
  | .atom .. => Looser.refl _
  | .str .. => Looser.refl _
  | .paren .. => Looser.refl _
  | .braced .. => Looser.refl _
  | .unary _ _ e => ⟨rfl, .inl rfl, shape_looser h e⟩
  | .binary _ x _ y => (shape_looser h x).append ⟨rfl, op_looser h, shape_looser h y⟩
  | .sel _ .extract x _ y => (shape_looser h x).append ⟨rfl, op_looser h, shape_looser h y⟩
  | .sel _ .namespace x _ y =>
    (shape_looser h x).append ⟨rfl, op_looser h, (shape_looser h y).setHead (op_looser h)⟩
  | .call _ _ f _ _ _ _ => (shape_looser h f).append ⟨rfl, op_looser h, Looser.refl _⟩
  | .func _ _ _ _ _ _ b =>
    ⟨rfl, .inl rfl, rfl, .inl rfl, (Looser.refl _).append ⟨rfl, .inl rfl, shape_looser h b⟩⟩
  | .ite _ _ _ _ _ t =>
    ⟨rfl, .inl rfl, rfl, .inl rfl, (Looser.refl _).append ⟨rfl, .inl rfl, shape_looser h t⟩⟩
  | .itee _ _ _ _ _ t _ _ e =>
    ⟨rfl, .inl rfl, rfl, .inl rfl, (Looser.refl _).append ⟨rfl, .inl rfl,
      (shape_looser h t).append ⟨rfl, els_looser h, shape_looser h e⟩⟩⟩
  | .for_ _ _ _ _ _ _ _ b =>
    ⟨rfl, .inl rfl, rfl, .inl rfl, (Looser.refl _).append ⟨rfl, .inl rfl,
      (Looser.refl _).append ⟨rfl, .inl rfl, shape_looser h b⟩⟩⟩
  | .while_ _ _ _ _ _ b =>
    ⟨rfl, .inl rfl, rfl, .inl rfl, (Looser.refl _).append ⟨rfl, .inl rfl, shape_looser h b⟩⟩
  | .repeat_ _ _ b => ⟨rfl, .inl rfl, shape_looser h b⟩

/-! ## Steady expressions are tame -/

/-- The strictest region the expression may stand in after formatting. -/
def low (g : Region) (w : Bool) : Region := if w then .brace else g

theorem low_body {g n : Region} {w : Bool} (h : (low g w).le n = true) (hw : w = true → g = .paren) :
    (low g (g == .paren)).le n = true ∧ (low g (g == .paren)).le .brace = true ∧
      ((g == .paren) = true → g = .paren) := by
  cases w with
  | true => have := hw rfl; subst this; exact ⟨h, rfl, fun _ => rfl⟩
  | false => cases g <;> cases n <;> first | exact ⟨rfl, rfl, by decide⟩ | cases h

theorem tokens_cons (e : Expr) : ∃ t ts, e.tokens = t :: ts := by
  cases h : e.tokens with
  | cons t ts => exact ⟨t, ts, rfl⟩
  | nil =>
    obtain ⟨t, ht⟩ := shape_head e .top
    have := shape_toks .top e
    rw [h] at this
    cases hs : shape .top e with
    | nil => rw [hs] at ht; cases ht
    | cons => rw [hs] at this; cases this

theorem SrcL.rawShape {g : Region} {e : Expr} (h : SrcL (shape g e) e.tokens) :
    RawOk true (shape g e) e.tokens := by
  obtain ⟨t, ts, ht⟩ := tokens_cons e
  rw [ht] at h ⊢
  have := h.raw
  rwa [setHead_free (shape_head_free g e)] at this

/-- The expression an argument begins with. -/
def Arg.head? : Arg → Option Expr
  | .hole _ => none
  | .val _ e => some e
  | .name _ _ n _ | .named _ _ n _ _ | .pdef _ n _ _ _ => some n

theorem rawArg (x : Arg) (hx : ∃ n, x.head? = some n) (h : SrcL (shapeArg x) x.tokens) :
    RawOk true (shapeArg x) x.tokens := by
  obtain ⟨n, hn⟩ := hx
  obtain ⟨u, hu⟩ := shape_head n .paren
  obtain ⟨t, ts, ht⟩ := tokens_cons n
  have h1 : ∃ t ts, x.tokens = t :: ts := by
    cases x <;> cases hn <;> simp [Arg.tokens, ht]
  have h2 : (shapeArg x).head? = some (.free, u) := by
    cases x <;> cases hn
    · exact hu
    all_goals exact head_append hu
  obtain ⟨t, ts, ht⟩ := h1
  rw [ht] at h ⊢
  have := h.raw
  rwa [setHead_free (by rw [h2]; intro p hp; cases hp; rfl)] at this

variable {o : Opts}

theorem steady_ite {P Q : Prop} {g n : Region} {w : Bool} {cx : Cx} {e : Expr}
    (hst : KeptIn o w cx.dir cx.chain e P) (hsrc : SrcL (shape g e) e.tokens)
    (hn : (low g w).le n = true) (hPQ : P → Q) :
    if kept o cx e = true then RawOk true (shape n e) e.tokens else Q := by
  unfold KeptIn at hst
  rw [← Coms.keptAt_eq] at hst
  split
  · rename_i hk
    rw [if_pos hk] at hst
    cases w with
    | true => exact (shape_looser hn e).raw (hst rfl)
    | false => exact (shape_looser hn e).raw hsrc.rawShape
  · rename_i hk
    rw [if_neg hk] at hst
    exact hPQ hst

theorem le_refl (g : Region) : (low g false).le g = true := by cases g <;> rfl

theorem ff {P : Prop} : false = true → P := fun h => by cases h

mutual
theorem tame_steady (g : Region) (w : Bool) (n : Region) (cx : Cx) (hn : (low g w).le n = true)
    (hw : w = true → g = .paren) : (e : Expr) →
    e.calm = true → Steady o (g == .paren) w cx.dir cx.chain cx.table e → SrcL (shape g e) e.tokens →
    Tame true o n cx e
  | .atom _ _ _, _, _, _ => by rw [Tame]; trivial
  | .str a q c l, _, hst, hs => by
    rw [Steady] at hst
    rw [Tame]
    exact steady_ite hst hs hn fun _ => trivial
  | .paren a l e r, hc, hst, hs => by
    rw [Steady] at hst
    rw [Tame]
    refine steady_ite hst hs hn fun hP => ?_
    have h1 := hs.tail
    exact tame_steady .paren false .paren (bodyCx cx) rfl ff e hc hP (h1.split (shape_toks _ e)).1
  | .braced a l es r, hc, hst, hs => by
    rw [Steady] at hst
    rw [Tame]
    refine steady_ite hst hs hn fun hP => ?_
    have h1 := hs.tail
    exact tames_steady .brace cx (by decide) false .free es hc hP (h1.split (shapes_toks _ _ es)).1
  | .unary a q e, hc, hst, hs => by
    rw [Steady] at hst
    rw [Tame]
    refine steady_ite hst hs hn fun hP => ?_
    refine tame_steady g w n _ hn hw e hc ?_ hs.tail
    split <;> exact hP
  | .binary a x q y, hc, hst, hs => by
    rw [Steady] at hst
    rw [Tame]
    simp only [Expr.calm, Bool.and_eq_true] at hc
    refine steady_ite hst hs hn fun hP => ?_
    obtain ⟨h1, h2⟩ := SrcL.split (x := x.tokens) (y := q :: y.tokens) (shape_toks _ x) hs
    refine ⟨fun _ _ => by simpa using hc.1.1, ?_, ?_⟩
    · exact tame_steady g w n _ hn hw x hc.1.2 hP.1 h1
    · exact tame_steady g w n _ hn hw y hc.2 hP.2 h2.tail
  | .sel a .extract x q y, hc, hst, hs => by
    rw [Steady] at hst
    rw [Tame]
    simp only [Expr.calm, Bool.and_eq_true] at hc
    refine steady_ite hst hs hn fun hP => ?_
    obtain ⟨h1, h2⟩ := SrcL.split (x := x.tokens) (y := q :: y.tokens) (shape_toks _ x) hs
    refine ⟨fun _ _ => by simpa using hc.1.1.1, (fun _ h => by cases h), ?_, ?_⟩
    · exact tame_steady g w n (plainCx cx) hn hw x hc.1.2 hP.1 h1
    · exact tame_steady g w n (plainCx cx) hn hw y hc.2 hP.2 h2.tail
  | .sel a .namespace x q y, hc, hst, hs => by
    rw [Steady] at hst
    rw [Tame]
    simp only [Expr.calm, Bool.and_eq_true] at hc
    refine steady_ite hst hs hn fun hP => ?_
    obtain ⟨h1, h2⟩ := SrcL.split (x := x.tokens) (y := q :: y.tokens) (shape_toks _ x) hs
    refine ⟨fun _ _ => by simpa using hc.1.1.1, fun _ _ _ => by simpa using hc.1.1.2, ?_, ?_⟩
    · exact tame_steady g w n (plainCx cx) hn hw x hc.1.2 hP.1 h1
    · exact tame_steady g w n (plainCx cx) hn hw y hc.2 hP.2 (h2.tail.setHead (shape_head_free g y))
  | .call a k f aa l items r, hc, hst, hs => by
    rw [Steady] at hst
    rw [Tame]
    simp only [Expr.calm, Bool.and_eq_true] at hc
    refine steady_ite hst hs hn fun hP => ?_
    obtain ⟨h1, h2⟩ := SrcL.split (x := f.tokens) (y := l :: (items.tokens ++ [r])) (shape_toks _ f) hs
    refine ⟨fun _ _ => ⟨by simpa using hc.1.1.1, by simpa using hc.1.1.2⟩,
      tame_steady g w n (plainCx cx) hn hw f hc.1.2 hP.1 h1,
      tameItems_steady _ true rfl rfl rfl items hc.2 hP.2.1 (h2.tail.split (shapeItems_toks items)).1,
      fun hT => ⟨fun _ => hP.2.2 hT, h2.raw⟩⟩
  | .func a kw pa l items r b, hc, hst, hs => by
    rw [Steady] at hst
    rw [Tame]
    simp only [Expr.calm, Bool.and_eq_true] at hc
    refine steady_ite hst hs hn fun hP => ?_
    obtain ⟨h1, h2⟩ := SrcL.split (x := items.tokens) (y := r :: b.tokens) (shapeItems_toks items)
      hs.tail.tail
    obtain ⟨hn1, hn2, hw'⟩ := low_body hn hw
    exact ⟨tameItems_steady _ false rfl rfl rfl items hc.1 hP.1 h1,
      fun _ => tame_steady g _ n (bodyCx cx) hn1 hw' b hc.2 hP.2 h2.tail,
      tame_steady g _ .brace (bodyCx cx) hn2 hw' b hc.2 hP.2 h2.tail⟩
  | .ite a kw l c r t, hc, hst, hs => by
    rw [Steady] at hst
    rw [Tame]
    simp only [Expr.calm, Bool.and_eq_true] at hc
    refine steady_ite hst hs hn fun hP => ?_
    obtain ⟨h1, h2⟩ := SrcL.split (x := c.tokens) (y := r :: t.tokens) (shape_toks _ c) hs.tail.tail
    obtain ⟨hn1, hn2, hw'⟩ := low_body hn hw
    exact ⟨tame_steady .paren false .paren (plainCx cx) rfl ff c hc.1 hP.1 h1,
      fun _ => tame_steady g _ n (bodyCx cx) hn1 hw' t hc.2 hP.2 h2.tail,
      tame_steady g _ .brace (bodyCx cx) hn2 hw' t hc.2 hP.2 h2.tail⟩
  | .itee a kw l c r t ea el e, hc, hst, hs => by
    rw [Steady] at hst
    rw [Tame]
    simp only [Expr.calm, Bool.and_eq_true] at hc
    refine steady_ite hst hs hn fun hP => ?_
    obtain ⟨h1, h2⟩ := SrcL.split (x := c.tokens) (y := r :: (t.tokens ++ el :: e.tokens))
      (shape_toks _ c) hs.tail.tail
    obtain ⟨h3, h4⟩ := SrcL.split (x := t.tokens) (y := el :: e.tokens) (shape_toks _ t) h2.tail
    obtain ⟨hn1, hn2, hw'⟩ := low_body hn hw
    exact ⟨tame_steady .paren false .paren (plainCx cx) rfl ff c hc.1.1.2 hP.1 h1,
      fun _ => ⟨tame_steady g _ n (bodyCx cx) hn1 hw' t hc.1.2 hP.2.1 h3,
        fun _ _ => by simpa using hc.1.1.1.1⟩,
      tame_steady g _ .brace (bodyCx cx) hn2 hw' t hc.1.2 hP.2.1 h3,
      fun _ _ => by simpa using hc.1.1.1.2,
      fun _ => tame_steady g _ n _ hn1 hw' e hc.2 hP.2.2 h4.tail,
      tame_steady g _ .brace _ hn2 hw' e hc.2 hP.2.2 h4.tail⟩
  | .for_ a kw l v i s r b, hc, hst, hs => by
    rw [Steady] at hst
    rw [Tame]
    simp only [Expr.calm, Bool.and_eq_true] at hc
    refine steady_ite hst hs hn fun hP => ?_
    obtain ⟨h1, h2⟩ := SrcL.split (x := v.tokens) (y := i :: (s.tokens ++ r :: b.tokens))
      (shape_toks _ v) hs.tail.tail
    obtain ⟨h3, h4⟩ := SrcL.split (x := s.tokens) (y := r :: b.tokens) (shape_toks _ s) h2.tail
    obtain ⟨hn1, hn2, hw'⟩ := low_body hn hw
    exact ⟨tame_steady .paren false .paren (plainCx cx) rfl ff v hc.1.1 hP.1 h1,
      tame_steady .paren false .paren (plainCx cx) rfl ff s hc.1.2 hP.2.1 h3,
      tame_steady g _ .brace (bodyCx cx) hn2 hw' b hc.2 hP.2.2 h4.tail,
      fun _ => tame_steady g _ n (bodyCx cx) hn1 hw' b hc.2 hP.2.2 h4.tail⟩
  | .while_ a kw l c r b, hc, hst, hs => by
    rw [Steady] at hst
    rw [Tame]
    simp only [Expr.calm, Bool.and_eq_true] at hc
    refine steady_ite hst hs hn fun hP => ?_
    obtain ⟨h1, h2⟩ := SrcL.split (x := c.tokens) (y := r :: b.tokens) (shape_toks _ c) hs.tail.tail
    obtain ⟨hn1, hn2, hw'⟩ := low_body hn hw
    exact ⟨tame_steady .paren false .paren (plainCx cx) rfl ff c hc.1 hP.1 h1,
      tame_steady g _ .brace (bodyCx cx) hn2 hw' b hc.2 hP.2 h2.tail,
      fun _ => tame_steady g _ n (bodyCx cx) hn1 hw' b hc.2 hP.2 h2.tail⟩
  | .repeat_ a kw b, hc, hst, hs => by
    rw [Steady] at hst
    rw [Tame]
    refine steady_ite hst hs hn fun hP => ?_
    obtain ⟨hn1, hn2, hw'⟩ := low_body hn hw
    exact ⟨tame_steady g _ .brace (bodyCx cx) hn2 hw' b hc hP hs.tail,
      fun _ => tame_steady g _ n (bodyCx cx) hn1 hw' b hc hP hs.tail⟩
theorem tames_steady (g : Region) (cx : Cx) (hg : (g == .paren) = false) (top : Bool) (p : Pos) :
    (es : Exprs) → es.calm = true → SteadyL o es → SrcL (shapes g p es) es.tokens →
    Tames true o g cx top es
  | .nil, _, _, _ => by rw [Tames]; trivial
  | .cons e es, hc, hst, hs => by
    rw [SteadyL] at hst
    simp only [Exprs.calm, Bool.and_eq_true] at hc
    rw [Tames]
    obtain ⟨h1, h2⟩ := SrcL.split (x := e.tokens) (y := es.tokens)
      ((map_setHead _ _).trans (shape_toks g e)) hs
    exact ⟨tame_steady g false g _ (le_refl g) ff e hc.1 (by rw [hg]; exact hst.1)
        (h1.setHead (shape_head_free g e)),
      tames_steady g cx hg top .need es hc.2 hst.2 h2⟩
theorem tameItems_steady (cx : Cx) (dir : Bool) (hd : cx.dir = false) (hc' : cx.chain = false)
    (ht : cx.table = none) : (xs : Items) → xs.calm = true → SteadyI o xs →
    SrcL (shapeItems xs) xs.tokens → TameItems true o cx dir xs
  | .nil, _, _, _ => by rw [TameItems]; trivial
  | .last x, hc, hst, hs => by
    rw [TameItems]
    exact tameArg_steady cx dir hd hc' ht x hc hst hs
  | .cons x s xs, hc, hst, hs => by
    rw [SteadyI] at hst
    simp only [Items.calm, Bool.and_eq_true] at hc
    rw [TameItems]
    obtain ⟨h1, h2⟩ := SrcL.split (x := x.tokens) (y := s :: xs.tokens) (shapeArg_toks x) hs
    exact ⟨tameArg_steady cx dir hd hc' ht x hc.1 hst.1 h1,
      tameItems_steady cx dir hd hc' ht xs hc.2 hst.2 h2.tail⟩
theorem tameArg_steady (cx : Cx) (dir : Bool) (hd : cx.dir = false) (hc' : cx.chain = false)
    (ht : cx.table = none) : (x : Arg) → x.calm = true → SteadyA o x →
    SrcL (shapeArg x) x.tokens → TameArg true o cx dir x
  | .hole _, _, _, _ => by rw [TameArg]; trivial
  | .val a e, hc, hst, hs => by
    rw [SteadyA] at hst
    rw [TameArg]
    exact ⟨fun _ => SrcL.rawShape hs,
      tame_steady .paren false .paren cx rfl ff e hc (by rw [hd, hc', ht]; exact hst) hs⟩
  | .name a na n q, hc, hst, hs => by
    rw [SteadyA] at hst
    rw [TameArg]
    obtain ⟨h1, h2⟩ := SrcL.split (x := n.tokens) (y := [q]) (shape_toks _ n) hs
    refine ⟨fun _ => ?_, tame_steady .paren false .paren (plainCx cx) rfl ff n hc hst h1⟩
    exact rawArg (.name a na n q) ⟨n, rfl⟩ hs
  | .named a na n q e, hc, hst, hs => by
    rw [SteadyA] at hst
    simp only [Arg.calm, Bool.and_eq_true] at hc
    rw [TameArg]
    obtain ⟨h1, h2⟩ := SrcL.split (x := n.tokens) (y := q :: e.tokens) (shape_toks _ n) hs
    refine ⟨fun _ => ?_, tame_steady .paren false .paren (plainCx cx) rfl ff n hc.1 hst.1 h1,
      tame_steady .paren false .paren cx rfl ff e hc.2 (by rw [hd, hc', ht]; exact hst.2) h2.tail⟩
    exact rawArg (.named a na n q e) ⟨n, rfl⟩ hs
  | .pdef a n da q e, hc, hst, hs => by
    rw [SteadyA] at hst
    simp only [Arg.calm, Bool.and_eq_true] at hc
    rw [TameArg]
    obtain ⟨h1, h2⟩ := SrcL.split (x := n.tokens) (y := q :: e.tokens) (shape_toks _ n) hs
    refine ⟨fun _ => ?_, tame_steady .paren false .paren (plainCx cx) rfl ff n hc.1 hst.1 h1,
      tame_steady .paren false .paren cx rfl ff e hc.2 (by rw [hd, hc', ht]; exact hst.2) h2.tail⟩
    exact rawArg (.pdef a n da q e) ⟨n, rfl⟩ hs
end

/-! ## Comments do not change what is read -/

mutual
theorem shape_annotate (P : List Placed) : (e : Expr) → (r : Ref) → (g : Region) →
    shape g (e.annotate P r) = shape g e
  | .atom .., _, _ => rfl
  | .str .., _, _ => rfl
  | .paren _ _ e _, _, _ => by simp [Expr.annotate, shape, shape_annotate P e]
  | .braced _ _ es _, _, _ => by simp [Expr.annotate, shape, shapes_annotate P es]
  | .unary _ _ e, _, _ => by simp [Expr.annotate, shape, shape_annotate P e]
  | .binary _ x _ y, _, _ => by simp [Expr.annotate, shape, shape_annotate P x, shape_annotate P y]
  | .sel _ .extract x _ y, _, _ => by simp [Expr.annotate, shape, shape_annotate P x, shape_annotate P y]
  | .sel _ .namespace x _ y, _, _ => by simp [Expr.annotate, shape, shape_annotate P x, shape_annotate P y]
  | .call _ _ f _ _ items _, _, _ => by
    simp [Expr.annotate, shape, shape_annotate P f, shapeItems_annotate P items]
  | .func _ _ _ _ items _ b, _, _ => by
    simp [Expr.annotate, shape, shape_annotate P b, shapeItems_annotate P items]
  | .ite _ _ _ c _ t, _, _ => by simp [Expr.annotate, shape, shape_annotate P c, shape_annotate P t]
  | .itee _ _ _ c _ t _ _ e, _, _ => by
    simp [Expr.annotate, shape, shape_annotate P c, shape_annotate P t, shape_annotate P e]
  | .for_ _ _ _ v _ s _ b, _, _ => by
    simp [Expr.annotate, shape, shape_annotate P v, shape_annotate P s, shape_annotate P b]
  | .while_ _ _ _ c _ b, _, _ => by simp [Expr.annotate, shape, shape_annotate P c, shape_annotate P b]
  | .repeat_ _ _ b, _, _ => by simp [Expr.annotate, shape, shape_annotate P b]
theorem shapes_annotate (P : List Placed) : (es : Exprs) → (r : Ref) → (i : Nat) → (g : Region) → (p : Pos) →
    shapes g p (es.annotate P r i) = shapes g p es
  | .nil, _, _, _, _ => rfl
  | .cons e es, _, _, _, _ => by
    simp [Exprs.annotate, shapes, shape_annotate P e, shapes_annotate P es]
theorem shapeItems_annotate (P : List Placed) : (xs : Items) → (r : Ref) → (i : Nat) →
    shapeItems (xs.annotate P r i) = shapeItems xs
  | .nil, _, _ => rfl
  | .last x, _, _ => by simp [Items.annotate, shapeItems, shapeArg_annotate P x]
  | .cons x _ xs, _, _ => by
    simp [Items.annotate, shapeItems, shapeArg_annotate P x, shapeItems_annotate P xs]
theorem shapeArg_annotate (P : List Placed) : (x : Arg) → (r : Ref) → shapeArg (x.annotate P r) = shapeArg x
  | .hole _, _ => rfl
  | .val _ e, _ => by simp [Arg.annotate, shapeArg, shape_annotate P e]
  | .name _ _ n _, _ => by simp [Arg.annotate, shapeArg, shape_annotate P n]
  | .named _ _ n _ e, _ => by simp [Arg.annotate, shapeArg, shape_annotate P n, shape_annotate P e]
  | .pdef _ n _ _ e, _ => by simp [Arg.annotate, shapeArg, shape_annotate P n, shape_annotate P e]
end

/-- The tokens of a file that is read as `ps`. -/
theorem srcL_file {ps : List (Pos × Tok)} {ts : List Token} {eof : Token} (hl : ps.map Prod.snd = ts.map outTok)
    (h : Fits ps (seen .fresh (rawFile ts eof))) : SrcL ps ts := by
  cases ts with
  | nil =>
    have : ps = [] := by simpa using hl
    subst this
    exact ⟨trivial, true, trivial⟩
  | cons t ts =>
    have key : ∃ s, seen .fresh (rawFile (t :: ts) eof) = seen s (rawEls (t :: ts)) := by
      refine ⟨endState .fresh (t.leading.map pieceEl), ?_⟩
      have hr : ∀ (s : RState) (t : Token) (ts : List Token), seen s (rawEls (t :: ts)) =
          seen s (.tok (outTok t) :: (t.trailing.map pieceEl ++ rawFile ts eof)) := by
        intro s t ts
        induction ts generalizing s t with
        | nil =>
          have : rawFile [] eof = eof.leading.map pieceEl := rfl
          rw [rawEls, seen, seen, seen, this, seen_append, seen_pieces, seen_pieces]
          rfl
        | cons u us ih =>
          have : rawFile (u :: us) eof = u.leading.map pieceEl ++
              .tok (outTok u) :: (u.trailing.map pieceEl ++ rawFile us eof) := by
            simp [rawFile]
          rw [rawEls_two, seen, seen, this, List.map_append, List.append_assoc]
          congr 1
          rw [seen_append, seen_append, seen_append, seen_append, ih]
      rw [hr, ← List.nil_append (seen (endState _ _) _), ← seen_pieces .fresh t.leading, ← seen_append]
      congr 1
      simp [rawFile]
    obtain ⟨s, hs⟩ := key
    rw [hs] at h
    have hlen : (seen s (rawEls (t :: ts))).length = (t :: ts).length := by
      have h1 := congrArg List.length (fits_toks h)
      have h2 := congrArg List.length hl
      simp only [List.length_map] at h1 h2
      rw [h1, h2]
    obtain ⟨hs, hc⟩ := clean_of_length hlen
    rw [(seen_raw hc hs).1] at h
    exact ⟨hc, _, h⟩

/-- Files of R's grammar without risky comments are formatted without changing the program. -/
theorem tames_attach (x : Root) (hg : x.es.gram = true)
    (hsrc : Fits (shapes .top .free x.es) (seen .fresh (rawFile x.es.tokens x.eof)))
    (hc : ∀ d ∈ x.view.decos [] true, d.risky x.view = false) (hst : SteadyL o x.attach.es) :
    Tames true o .top {} true x.attach.es := by
  refine tames_steady .top {} (by decide) true .free _ (calm_attach x hg hc) hst ?_
  have h1 : x.attach.es.tokens = x.es.tokens := annotates_tokens _ _ _ _
  have h2 : shapes .top .free x.attach.es = shapes .top .free x.es := shapes_annotate _ _ _ _ _ _
  rw [h1, h2]
  exact srcL_file (shapes_toks _ _ _) hsrc

end Verif.Format
