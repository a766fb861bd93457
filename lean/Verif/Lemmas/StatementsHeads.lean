import Verif.Lemmas.StatementsEnter
import Verif.Spec.Grammar

/-!
# The comments between a head and its block
-/

namespace Verif.Format
open Verif.Syntax

variable {X : View} {D : List Deco}

/-! ## Placement by kind of the enclosing node -/

theorem no_hole {d : Deco} (hh : ∀ p, d.preceding = some p → p.2.isHole = false) : handleHole d = none := by
  unfold handleHole
  cases hp : d.preceding with
  | none => rfl
  | some p =>
    obtain ⟨i, y⟩ := p
    simp [hh _ hp]

theorem expr_no_hole (e : Expr) : e.view.isHole = false := by
  cases h : e.view.isHole with
  | false => rfl
  | true =>
    have h1 := hole_kind h
    cases e <;> simp only [Expr.view, View.kind, View.parts, Parts.one, reduceCtorEq, and_false] at h1

theorem place_for {d : Deco} (hk : d.enclosing.kind = .rForStatement) (hp : d.position ≠ .sameLine)
    (hh : ∀ p, d.preceding = some p → p.2.isHole = false) :
    placeComment d = (handleLoop .rForStatement 6 d).getD (placeDefault d) := by
  have h0 := no_hole hh
  have h1 : handleArgument d = none := by simp [handleArgument, hk]
  have h2 : handleNameClause d = none := by simp [handleNameClause, hk]
  have h3 : handleParen d = none := by simp [handleParen, hk]
  have h4 : handleElse d = none := by simp [handleElse, hk]
  have h5 : handleIf d = none := by simp [handleIf, hk]
  have h6 : handleRepeat d = none := by simp [handleRepeat, hk]
  have h7 : handleLoop .rWhileStatement 4 d = none := by simp [handleLoop, hk]
  have h8 : handleFunction d = none := by simp [handleFunction, hk]
  unfold placeComment
  cases hpos : d.position with
  | sameLine => exact absurd hpos hp
  | _ => cases hl : handleLoop .rForStatement 6 d <;> simp only [orElse, h0, h1, h2, h3, h4, h5, h6, h7, h8]

theorem place_while {d : Deco} (hk : d.enclosing.kind = .rWhileStatement) (hp : d.position ≠ .sameLine)
    (hh : ∀ p, d.preceding = some p → p.2.isHole = false) :
    placeComment d = (handleLoop .rWhileStatement 4 d).getD (placeDefault d) := by
  have h0 := no_hole hh
  have h1 : handleArgument d = none := by simp [handleArgument, hk]
  have h2 : handleNameClause d = none := by simp [handleNameClause, hk]
  have h3 : handleParen d = none := by simp [handleParen, hk]
  have h4 : handleElse d = none := by simp [handleElse, hk]
  have h5 : handleIf d = none := by simp [handleIf, hk]
  have h6 : handleRepeat d = none := by simp [handleRepeat, hk]
  have h7 : handleLoop .rForStatement 6 d = none := by simp [handleLoop, hk]
  have h8 : handleFunction d = none := by simp [handleFunction, hk]
  unfold placeComment
  cases hpos : d.position with
  | sameLine => exact absurd hpos hp
  | _ => cases hl : handleLoop .rWhileStatement 4 d <;> simp only [orElse, hl, h0, h1, h2, h3, h4, h5, h6, h7, h8]

theorem place_rep {d : Deco} (hk : d.enclosing.kind = .rRepeatStatement) (hp : d.position ≠ .sameLine)
    (hh : ∀ p, d.preceding = some p → p.2.isHole = false) :
    placeComment d = (handleRepeat d).getD (placeDefault d) := by
  have h0 := no_hole hh
  have h1 : handleArgument d = none := by simp [handleArgument, hk]
  have h2 : handleNameClause d = none := by simp [handleNameClause, hk]
  have h3 : handleParen d = none := by simp [handleParen, hk]
  have h4 : handleElse d = none := by simp [handleElse, hk]
  have h5 : handleIf d = none := by simp [handleIf, hk]
  have h6 : handleLoop .rWhileStatement 4 d = none := by simp [handleLoop, hk]
  have h7 : handleLoop .rForStatement 6 d = none := by simp [handleLoop, hk]
  have h8 : handleFunction d = none := by simp [handleFunction, hk]
  unfold placeComment
  cases hpos : d.position with
  | sameLine => exact absurd hpos hp
  | _ => cases hl : handleRepeat d <;> simp only [orElse, hl, h0, h1, h2, h3, h4, h5, h6, h7, h8]

theorem place_fun {d : Deco} (hk : d.enclosing.kind = .rFunctionDefinition) (hp : d.position ≠ .sameLine)
    (hh : ∀ p, d.preceding = some p → p.2.isHole = false) :
    placeComment d = (handleFunction d).getD (placeDefault d) := by
  have h0 := no_hole hh
  have h1 : handleArgument d = none := by simp [handleArgument, hk]
  have h2 : handleNameClause d = none := by simp [handleNameClause, hk]
  have h3 : handleParen d = none := by simp [handleParen, hk]
  have h4 : handleElse d = none := by simp [handleElse, hk]
  have h5 : handleIf d = none := by simp [handleIf, hk]
  have h6 : handleLoop .rWhileStatement 4 d = none := by simp [handleLoop, hk]
  have h7 : handleLoop .rForStatement 6 d = none := by simp [handleLoop, hk]
  have h8 : handleRepeat d = none := by simp [handleRepeat, hk]
  unfold placeComment
  cases hpos : d.position with
  | sameLine => exact absurd hpos hp
  | _ => cases hl : handleFunction d <;> simp only [orElse, hl, h0, h1, h2, h3, h4, h5, h6, h7, h8]

theorem place_cond {d : Deco} (hk : d.enclosing.kind = .rIfStatement) (hp : d.position ≠ .sameLine)
    (hh : ∀ p, d.preceding = some p → p.2.isHole = false) :
    placeComment d = (handleIf d).getD (placeDefault d) := by
  have h0 := no_hole hh
  have h1 : handleArgument d = none := by simp [handleArgument, hk]
  have h2 : handleNameClause d = none := by simp [handleNameClause, hk]
  have h3 : handleParen d = none := by simp [handleParen, hk]
  have h4 : handleElse d = none := by simp [handleElse, hk]
  have h5 : handleFunction d = none := by simp [handleFunction, hk]
  have h6 : handleLoop .rWhileStatement 4 d = none := by simp [handleLoop, hk]
  have h7 : handleLoop .rForStatement 6 d = none := by simp [handleLoop, hk]
  have h8 : handleRepeat d = none := by simp [handleRepeat, hk]
  unfold placeComment
  cases hpos : d.position with
  | sameLine => exact absurd hpos hp
  | _ => cases hl : handleIf d <;> simp only [orElse, hl, h0, h1, h2, h3, h4, h5, h6, h7, h8]

theorem place_clause {d : Deco} (hk : d.enclosing.kind = .rElseClause) (hp : d.position ≠ .sameLine)
    (hh : ∀ p, d.preceding = some p → p.2.isHole = false) :
    placeComment d = (handleElse d).getD (placeDefault d) := by
  have h0 := no_hole hh
  have h1 : handleArgument d = none := by simp [handleArgument, hk]
  have h2 : handleNameClause d = none := by simp [handleNameClause, hk]
  have h3 : handleParen d = none := by simp [handleParen, hk]
  have h4 : handleIf d = none := by simp [handleIf, hk]
  have h5 : handleFunction d = none := by simp [handleFunction, hk]
  have h6 : handleLoop .rWhileStatement 4 d = none := by simp [handleLoop, hk]
  have h7 : handleLoop .rForStatement 6 d = none := by simp [handleLoop, hk]
  have h8 : handleRepeat d = none := by simp [handleRepeat, hk]
  unfold placeComment
  cases hpos : d.position with
  | sameLine => exact absurd hpos hp
  | _ => cases hl : handleElse d <;> simp only [orElse, hl, h0, h1, h2, h3, h4, h5, h6, h7, h8]

theorem place_same {d : Deco} (hp : d.position = .sameLine) : placeComment d = placeDefault d := by
  unfold placeComment
  rw [hp]

theorem place_loop {d : Deco} {k : Kind} {n : Nat} {b : View} (hk : d.enclosing.kind = k)
    (hkn : (k = .rForStatement ∧ n = 6) ∨ (k = .rWhileStatement ∧ n = 4))
    (hh : ∀ p, d.preceding = some p → p.2.isHole = false) (hb : d.enclosing.parts.slot n = some b) (ho : Opens b) :
    placeComment d = ⟨.leading, d.ref ++ [n, 1]⟩ ↔
      d.position ≠ .sameLine ∧ at? d.following = some n ∧ d.followingToken ≠ .rParen := by
  have hd := default_short d .leading n 1 []
  have hbody := opens_body (r := d.ref ++ [n]) ho
  rw [List.append_assoc] at hbody
  by_cases hp : d.position = .sameLine
  · rw [place_same hp]
    simp [hp, hd]
  · have key : placeComment d = (handleLoop k n d).getD (placeDefault d) := by
      rcases hkn with ⟨rfl, rfl⟩ | ⟨rfl, rfl⟩
      · exact place_for hk hp hh
      · exact place_while hk hp hh
    rw [key, handleLoop, if_pos hk, hb]
    simp only [hbody]
    by_cases hc : at? d.following = some n ∧ d.followingToken ≠ .rParen
    · rw [if_pos hc]
      simp [hp, hc]
    · rw [if_neg hc]
      simp only [Option.getD_some, Placement.mk.injEq, true_and]
      constructor
      · intro h
        have := congrArg List.length h
        simp at this
      · intro h
        exact absurd h.2 hc

theorem place_repeat {d : Deco} {b : View} (hk : d.enclosing.kind = .rRepeatStatement)
    (hh : ∀ p, d.preceding = some p → p.2.isHole = false) (hb : d.enclosing.parts.slot 1 = some b) (ho : Opens b) :
    placeComment d = ⟨.leading, d.ref ++ [1, 1]⟩ ↔ d.position ≠ .sameLine := by
  have hd := default_short d .leading 1 1 []
  have hbody := opens_body (r := d.ref ++ [1]) ho
  rw [List.append_assoc] at hbody
  by_cases hp : d.position = .sameLine
  · rw [place_same hp]
    simp [hp, hd]
  · rw [place_rep hk hp hh, handleRepeat, if_pos hk, hb]
    simp [hbody, hp]

theorem place_function {d : Deco} {b : View} (hk : d.enclosing.kind = .rFunctionDefinition)
    (hh : ∀ p, d.preceding = some p → p.2.isHole = false) (hb : d.enclosing.parts.slot 2 = some b) (ho : Opens b) :
    placeComment d = ⟨.leading, d.ref ++ [2, 1]⟩ ↔ d.position ≠ .sameLine ∧ at? d.following = some 2 := by
  have hd := default_short d .leading 2 1 []
  have hbody := opens_body (r := d.ref ++ [2]) ho
  rw [List.append_assoc] at hbody
  by_cases hp : d.position = .sameLine
  · rw [place_same hp]
    simp [hp, hd]
  · rw [place_fun hk hp hh, handleFunction, if_pos hk, hb]
    by_cases h1 : at? d.following = some 1
    · simp [h1]
    · by_cases h2 : at? d.following = some 2
      · simp [h2, hp, hbody]
      · simp [h1, h2, hd]

theorem place_if {d : Deco} {c b : View} (hk : d.enclosing.kind = .rIfStatement)
    (hh : ∀ p, d.preceding = some p → p.2.isHole = false) (hc : d.enclosing.parts.slot 2 = some c)
    (hb : d.enclosing.parts.slot 4 = some b) (h5 : d.enclosing.parts.slot 5 = none) (ho : Opens b) :
    placeComment d = ⟨.leading, d.ref ++ [4, 1]⟩ ↔ d.position ≠ .sameLine ∧
      ¬ (at? d.preceding = some 2 ∧ d.followingToken = .rParen) ∧ at? d.following = some 4 := by
  have hd := default_short d .leading 4 1 []
  have hbody := opens_body (r := d.ref ++ [4]) ho
  rw [List.append_assoc] at hbody
  by_cases hp : d.position = .sameLine
  · rw [place_same hp]
    simp [hp, hd]
  · rw [place_cond hk hp hh, handleIf, if_pos hk, hb, hc]
    by_cases h1 : at? d.preceding = some 2 ∧ d.followingToken = .rParen
    · simp [h1]
    · by_cases h2 : at? d.following = some 4
      · simp [h1, h2, hp, hbody]
      · simp [h1, h2, h5, hd]

theorem place_ifelse {d : Deco} {c b cl al : View} (hk : d.enclosing.kind = .rIfStatement)
    (hh : ∀ p, d.preceding = some p → p.2.isHole = false) (hc : d.enclosing.parts.slot 2 = some c)
    (hb : d.enclosing.parts.slot 4 = some b) (h5 : d.enclosing.parts.slot 5 = some cl) (hcl : cl.kind = .rElseClause)
    (hal : cl.parts.slot 1 = some al) (ho : Opens b) :
    placeComment d = ⟨.leading, d.ref ++ [4, 1]⟩ ↔ d.position ≠ .sameLine ∧
      ¬ (at? d.preceding = some 2 ∧ d.followingToken = .rParen) ∧
      (at? d.following = some 4 ∨ (d.position = .endOfLine ∧ at? d.following = some 5)) := by
  have hd := default_short d .leading 4 1 []
  have hbody := opens_body (r := d.ref ++ [4]) ho
  rw [List.append_assoc] at hbody
  have halt : placeAlternative (d.ref ++ [5, 1]) al ≠ some ⟨.leading, d.ref ++ [4, 1]⟩ := by
    intro h
    obtain ⟨s, h, -⟩ := altPath h
    have := List.append_cancel_left (show d.ref ++ [4, 1] = d.ref ++ ([5, 1] ++ s) by rw [← List.append_assoc]; exact h)
    simp at this
  by_cases hp : d.position = .sameLine
  · rw [place_same hp]
    simp [hp, hd]
  · rw [place_cond hk hp hh, handleIf, if_pos hk, hb, hc]
    by_cases h1 : at? d.preceding = some 2 ∧ d.followingToken = .rParen
    · simp [h1]
    · by_cases h2 : at? d.following = some 4
      · simp [h1, h2, hp, hbody]
      · by_cases h3 : at? d.following = some 5
        · simp only [h1, if_false, h2, h5, hal, hcl, h3, and_self, if_true]
          cases hpos : d.position with
          | sameLine => exact absurd hpos hp
          | endOfLine => simp [hbody]
          | ownLine =>
            cases hA : placeAlternative (d.ref ++ [5, 1]) al with
            | none => simp [hd]
            | some p =>
              rw [hA] at halt
              simp only [ne_eq, Option.some.injEq] at halt
              simp [halt]
        · simp [h1, h2, h3, h5, hal, hd]

theorem place_alternative {d : Deco} {c b cl al : View} (hk : d.enclosing.kind = .rIfStatement)
    (hh : ∀ p, d.preceding = some p → p.2.isHole = false) (hc : d.enclosing.parts.slot 2 = some c)
    (hb : d.enclosing.parts.slot 4 = some b) (h5 : d.enclosing.parts.slot 5 = some cl) (hcl : cl.kind = .rElseClause)
    (hal : cl.parts.slot 1 = some al) {s : Ref} (hs : s ≠ [])
    (halt : placeAlternative (d.ref ++ [5, 1]) al = some ⟨.leading, d.ref ++ 5 :: 1 :: s⟩) :
      placeComment d = ⟨.leading, d.ref ++ 5 :: 1 :: s⟩ ↔ d.position = .ownLine ∧
        ¬ (at? d.preceding = some 2 ∧ d.followingToken = .rParen) ∧ at? d.following = some 5 := by
  have hd := default_short d .leading 5 1 s
  have hbody : placeBody (d.ref ++ [4]) b ≠ ⟨.leading, d.ref ++ 5 :: 1 :: s⟩ := by
    intro h
    have hq' : ∃ q', (placeBody (d.ref ++ [4]) b).target = d.ref ++ 4 :: q' := by
      unfold placeBody
      split
      · split
        · rename_i i _ _
          exact ⟨[i], by simp⟩
        · exact ⟨[], by simp⟩
      · exact ⟨[], by simp⟩
    obtain ⟨q', hq'⟩ := hq'
    rw [h] at hq'
    have := List.append_cancel_left hq'
    simp at this
  by_cases hp : d.position = .sameLine
  · rw [place_same hp]
    simp [hp, hd]
  · rw [place_cond hk hp hh, handleIf, if_pos hk, hb, hc]
    by_cases h1 : at? d.preceding = some 2 ∧ d.followingToken = .rParen
    · simp [h1]
    · by_cases h2 : at? d.following = some 4
      · simp [h1, h2, hbody]
      · by_cases h3 : at? d.following = some 5
        · simp only [h1, if_false, h2, h5, hal, hcl, h3, and_self, if_true, halt]
          cases hpos : d.position with
          | sameLine => exact absurd hpos hp
          | endOfLine => simp [hbody]
          | ownLine => simp
        · simp [h1, h2, h3, h5, hal, hd]

theorem place_else {d : Deco} {al : View} (hk : d.enclosing.kind = .rElseClause)
    (hh : ∀ p, d.preceding = some p → p.2.isHole = false) (hal : d.enclosing.parts.slot 1 = some al) {s : Ref} (hs : s ≠ [])
    (halt : placeAlternative (d.ref ++ [1]) al = some ⟨.leading, d.ref ++ 1 :: s⟩) :
    placeComment d = ⟨.leading, d.ref ++ 1 :: s⟩ ↔ d.position ≠ .sameLine ∧ at? d.following = some 1 := by
  obtain ⟨a, s', rfl⟩ := List.exists_cons_of_ne_nil hs
  have hd := default_short d .leading 1 a s'
  by_cases hp : d.position = .sameLine
  · rw [place_same hp]
    simp [hp, hd]
  · rw [place_clause hk hp hh, handleElse, if_pos hk, hal]
    by_cases h1 : at? d.following = some 1
    · simp [halt, h1, hp]
    · simp [h1, hd]

/-! ## Bodies -/

theorem expr_first (e : Expr) : ∃ t, e.view.first = some t ∧ triviaBefore e.tokens = t.leading := by
  have h := view_first e.view
  rw [view_tokens] at h
  cases ht : e.tokens with
  | nil => exact absurd ht (tokens_ne_nil e)
  | cons t ts => exact ⟨t, by rw [h, ht]; rfl, rfl⟩

theorem expr_last (e : Expr) : ∃ t, e.view.last = some t ∧ triviaAfter e.tokens = t.trailing := by
  have h := view_last e.view
  rw [view_tokens] at h
  cases ht : e.tokens.getLast? with
  | none => rw [List.getLast?_eq_none_iff] at ht; exact absurd ht (tokens_ne_nil e)
  | some t => exact ⟨t, by rw [h, ht], by rw [triviaAfter, ht]⟩

theorem opens_first {b : Expr} {g : Bool} (ho : Opens b.view) (hg : b.gram g = true) {t : Token} (hf : b.view.first = some t) :
    t.kind ≠ .rParen := by
  have := opens_braced ho
  cases b with
  | braced a l es r =>
    simp only [Expr.view, View.first, Parts.first, Option.some.injEq] at hf
    subst hf
    simp only [Expr.gram, Bool.and_eq_true, beq_iff_eq] at hg
    rw [hg.1.1]
    decide
  | _ => cases this

theorem nov (n : Nat) (e : Expr) : ∀ q, some (n, e.view) = some q → q.2.isHole = false := by
  rintro q h
  cases h
  exact expr_no_hole e

theorem no_view : ∀ q : Nat × View, (none : Option (Nat × View)) = some q → q.2.isHole = false := fun _ h => by cases h

/-- The comments in a gap go to `q`, or none of them does. -/
theorem direct_gaps {z : View} {r q : Ref} {n : Nat} {C : Option Nat → Option Nat → Kind → Prop}
    (hP : ∀ d : Deco, d.ref = r → d.enclosing = z → (∀ p, d.preceding = some p → p.2.isHole = false) →
      (placeComment d = ⟨.leading, q⟩ ↔ d.position ≠ .sameLine ∧ C (at? d.preceding) (at? d.following) d.followingToken))
    (g : Nat) (p f : Option (Nat × View)) (prev : Option Token) (u : Token) (c : Bool)
    (hp : ∀ q, p = some q → q.2.isHole = false) :
    (C (at? p) (at? f) u.kind → directTexts r q n c (gapDecos z r g p f prev u) =
      if decide (g ≤ n) = c then entering (trailingOf prev ++ u.leading) else []) ∧
    (¬ C (at? p) (at? f) u.kind → directTexts r q n c (gapDecos z r g p f prev u) = []) := by
  have hd : ∀ d ∈ gapDecos z r g p f prev u, (placeComment d = ⟨.leading, q⟩ ↔
      d.position ≠ .sameLine ∧ C (at? p) (at? f) u.kind) := by
    intro d hd
    obtain ⟨h1, h2, -, h4, h5⟩ := gapDecos_mem hd
    rw [hP d h1 h2 (by rw [h4]; exact hp), h4, h5, (gap_position hd).1]
  constructor
  · intro hC
    exact direct_gap fun d h => ⟨fun h' => ((hd d h).1 h').1, fun h' => (hd d h).2 ⟨h', hC⟩⟩
  · intro hC
    exact direct_other fun d h h' => hC ((hd d h).1 h').2

theorem for_ent (hD : ∀ d ∈ D, ∃ s, d.Sound X s) {r : Ref} {a : Ann} {kw l i rp : Token} {v s b : Expr} {g : Bool}
    (hn : Node X D r (Expr.for_ a kw l v i s rp b).view) (hr : rp.kind = .rParen) (hg : b.gram g = true) :
    Ent X D (r ++ [6]) b (bodyComments b (entering (rp.trailing ++ triviaBefore b.tokens))) [] := by
  refine body_ent hD hn rfl nofun nofun fun ho => ?_
  obtain ⟨tv, hv, -⟩ := expr_first v
  obtain ⟨ts, hs, -⟩ := expr_first s
  obtain ⟨tb, hb, hbt⟩ := expr_first b
  obtain ⟨uv, hv', -⟩ := expr_last v
  obtain ⟨us, hs', -⟩ := expr_last s
  have gaps := direct_gaps (z := (Expr.for_ a kw l v i s rp b).view) (r := r) (q := r ++ [6, 1]) (n := 6)
    (C := fun _ f u => f = some 6 ∧ u ≠ .rParen)
    (fun d h1 h2 hp => h1 ▸ place_loop (b := b.view) (by rw [h2]; rfl) (.inl ⟨rfl, rfl⟩) hp (by rw [h2]; rfl) ho)
  have key : ∀ c, directTexts r (r ++ [6, 1]) 6 c ((Expr.for_ a kw l v i s rp b).view.decos r false) =
      if true = c then entering (rp.trailing ++ triviaBefore b.tokens) else [] := by
    intro c
    generalize hz : (Expr.for_ a kw l v i s rp b).view = z at gaps ⊢
    rw [← hz]
    simp only [Expr.view, View.decos]
    rw [show View.node .rForStatement _ = z from hz]
    simp only [Parts.decos, subDecos, View.lastOr, hv, hs, hb, hv', hs', Parts.firstSub, direct_append, direct_sub,
      List.nil_append, List.append_nil, if_true, Bool.false_eq_true, if_false, Bool.true_or, Bool.or_true]
    rw [(gaps 1 _ _ _ _ _ no_view).2 (by simp [at?]), (gaps 2 _ _ _ _ _ no_view).2 (by simp [at?]),
      (gaps 3 _ _ _ _ _ (nov _ _)).2 (by simp [at?]), (gaps 4 _ _ _ _ _ (nov _ _)).2 (by simp [at?]),
      (gaps 5 _ _ _ _ _ (nov _ _)).2 (by simp [hr]), (gaps 6 _ _ _ _ _ (nov _ _)).1 ⟨rfl, opens_first ho hg hb⟩, hbt]
    simp [trailingOf]
  exact ⟨by rw [key]; simp, by rw [key]; simp⟩

theorem while_ent (hD : ∀ d ∈ D, ∃ s, d.Sound X s) {r : Ref} {a : Ann} {kw l rp : Token} {s b : Expr} {g : Bool}
    (hn : Node X D r (Expr.while_ a kw l s rp b).view) (hr : rp.kind = .rParen) (hg : b.gram g = true) :
    Ent X D (r ++ [4]) b (bodyComments b (entering (rp.trailing ++ triviaBefore b.tokens))) [] := by
  refine body_ent hD hn rfl nofun nofun fun ho => ?_
  obtain ⟨ts, hs, -⟩ := expr_first s
  obtain ⟨tb, hb, hbt⟩ := expr_first b
  obtain ⟨us, hs', -⟩ := expr_last s
  have gaps := direct_gaps (z := (Expr.while_ a kw l s rp b).view) (r := r) (q := r ++ [4, 1]) (n := 4)
    (C := fun _ f u => f = some 4 ∧ u ≠ .rParen)
    (fun d h1 h2 hp => h1 ▸ place_loop (b := b.view) (by rw [h2]; rfl) (.inr ⟨rfl, rfl⟩) hp (by rw [h2]; rfl) ho)
  have key : ∀ c, directTexts r (r ++ [4, 1]) 4 c ((Expr.while_ a kw l s rp b).view.decos r false) =
      if true = c then entering (rp.trailing ++ triviaBefore b.tokens) else [] := by
    intro c
    generalize hz : (Expr.while_ a kw l s rp b).view = z at gaps ⊢
    rw [← hz]
    simp only [Expr.view, View.decos]
    rw [show View.node .rWhileStatement _ = z from hz]
    simp only [Parts.decos, subDecos, View.lastOr, hs, hb, hs', Parts.firstSub, direct_append, direct_sub,
      List.nil_append, List.append_nil, if_true, Bool.false_eq_true, if_false, Bool.true_or, Bool.or_true]
    rw [(gaps 1 _ _ _ _ _ no_view).2 (by simp [at?]), (gaps 2 _ _ _ _ _ no_view).2 (by simp [at?]),
      (gaps 3 _ _ _ _ _ (nov _ _)).2 (by simp [hr]), (gaps 4 _ _ _ _ _ (nov _ _)).1 ⟨rfl, opens_first ho hg hb⟩, hbt]
    simp [trailingOf]
  exact ⟨by rw [key]; simp, by rw [key]; simp⟩

theorem repeat_ent (hD : ∀ d ∈ D, ∃ s, d.Sound X s) {r : Ref} {a : Ann} {kw : Token} {b : Expr}
    (hn : Node X D r (Expr.repeat_ a kw b).view) :
    Ent X D (r ++ [1]) b (bodyComments b (entering (kw.trailing ++ triviaBefore b.tokens))) [] := by
  refine body_ent hD hn rfl nofun nofun fun ho => ?_
  obtain ⟨tb, hb, hbt⟩ := expr_first b
  have gaps := direct_gaps (z := (Expr.repeat_ a kw b).view) (r := r) (q := r ++ [1, 1]) (n := 1)
    (C := fun _ _ _ => True) (fun d h1 h2 hp => by
      rw [and_true]
      exact h1 ▸ place_repeat (b := b.view) (by rw [h2]; rfl) hp (by rw [h2]; rfl) ho)
  have key : ∀ c, directTexts r (r ++ [1, 1]) 1 c ((Expr.repeat_ a kw b).view.decos r false) =
      if true = c then entering (kw.trailing ++ triviaBefore b.tokens) else [] := by
    intro c
    generalize hz : (Expr.repeat_ a kw b).view = z at gaps ⊢
    rw [← hz]
    simp only [Expr.view, View.decos]
    rw [show View.node .rRepeatStatement _ = z from hz]
    simp only [Parts.decos, subDecos, View.lastOr, hb, Parts.firstSub, direct_append, direct_sub,
      List.nil_append, List.append_nil, if_true, Bool.false_eq_true, if_false, Bool.true_or, Bool.or_true]
    rw [(gaps 1 _ _ _ _ _ no_view).1 trivial, hbt]
    simp [trailingOf]
  exact ⟨by rw [key]; simp, by rw [key]; simp⟩

theorem function_ent (hD : ∀ d ∈ D, ∃ s, d.Sound X s) {r : Ref} {a pa : Ann} {kw l rp : Token} {items : Items} {b : Expr}
    (hn : Node X D r (Expr.func a kw pa l items rp b).view) :
    Ent X D (r ++ [2]) b (bodyComments b (entering (rp.trailing ++ triviaBefore b.tokens))) [] := by
  refine body_ent hD hn rfl nofun nofun fun ho => ?_
  obtain ⟨tb, hb, hbt⟩ := expr_first b
  have hlast : (View.node .rParameters (.tok l (items.view false rp))).last = some rp := by
    have : (items.view false rp).last = some rp := by
      rw [parts_last, items_tokens]
      simp
    simp only [View.last, Parts.last, this]
  have gaps := direct_gaps (z := (Expr.func a kw pa l items rp b).view) (r := r) (q := r ++ [2, 1]) (n := 2)
    (C := fun _ f _ => f = some 2)
    (fun d h1 h2 hp => h1 ▸ place_function (b := b.view) (by rw [h2]; rfl) hp (by rw [h2]; rfl) ho)
  have key : ∀ c, directTexts r (r ++ [2, 1]) 2 c ((Expr.func a kw pa l items rp b).view.decos r false) =
      if true = c then entering (rp.trailing ++ triviaBefore b.tokens) else [] := by
    intro c
    generalize hz : (Expr.func a kw pa l items rp b).view = z at gaps ⊢
    rw [← hz]
    simp only [Expr.view]
    rw [View.decos, show View.node .rFunctionDefinition _ = z from hz]
    generalize hy : View.node .rParameters (.tok l (items.view false rp)) = y at hlast ⊢
    have hfirst : y.first = some l := by rw [← hy]; rfl
    simp only [Parts.decos, subDecos, View.lastOr, hb, hfirst, hlast, Parts.firstSub, direct_append, direct_sub,
      List.nil_append, List.append_nil, if_true, Bool.false_eq_true, if_false, Bool.true_or, Bool.or_true]
    rw [(gaps 1 _ _ _ _ _ no_view).2 (by simp [at?]), (gaps 2 _ _ _ _ _ ?_).1 rfl, hbt]
    · simp [trailingOf]
    · rintro q h
      cases h
      rw [← hy]
      rfl
  exact ⟨by rw [key]; simp, by rw [key]; simp⟩

theorem direct_none {r q : Ref} {n : Nat} {c : Bool} {C : List Deco} (h : ∀ d ∈ C, placeComment d ≠ ⟨.leading, q⟩) :
    directTexts r q n c C = [] := by
  unfold directTexts
  rw [List.filter_eq_nil_iff.2]
  · rfl
  · intro d hd he
    simp only [Bool.and_eq_true, beq_iff_eq] at he
    exact h d hd he.1.2

theorem direct_all {r q : Ref} {n g : Nat} {c : Bool} {C : List Deco}
    (h : ∀ d ∈ C, d.ref = r ∧ d.gap = g ∧ placeComment d = ⟨.leading, q⟩) :
    directTexts r q n c C = if decide (g ≤ n) = c then C.map Deco.text else [] := by
  unfold directTexts
  split
  · rename_i hc
    rw [List.filter_eq_self.2]
    intro d hd
    obtain ⟨h1, h2, h3⟩ := h d hd
    rw [h1, h2, h3, hc]
    simp
  · rename_i hc
    rw [List.filter_eq_nil_iff.2]
    · rfl
    · intro d hd he
      obtain ⟨h1, h2, h3⟩ := h d hd
      rw [h2] at he
      simp only [Bool.and_eq_true, beq_iff_eq] at he
      exact hc he.2

theorem direct_later {x : View} {r q : Ref} {n g : Nat} {c : Bool} {p f : Option (Nat × View)} {prev : Option Token}
    {u : Token} (h : ∀ d ∈ gapDecos x r g p f prev u, (placeComment d = ⟨.leading, q⟩ ↔ d.position = .ownLine)) :
    directTexts r q n c (gapDecos x r g p f prev u) =
      if decide (g ≤ n) = c then laterComments (trailingOf prev ++ u.leading) else [] := by
  obtain ⟨A, B, h1, h2, h3, -, h5⟩ := gapDecos_lines x r g p f prev u
  have hA : ∀ d ∈ A, d ∈ gapDecos x r g p f prev u := fun d hd => by rw [h1]; exact List.mem_append_left _ hd
  have hB : ∀ d ∈ B, d ∈ gapDecos x r g p f prev u := fun d hd => by rw [h1]; exact List.mem_append_right _ hd
  rw [h1, direct_append, direct_none (C := A) (fun d hd he => h2 d hd ((h d (hA d hd)).1 he)), List.nil_append,
    direct_all (g := g) (C := B) (fun d hd => ⟨(gapDecos_mem (hB d hd)).1, (gapDecos_mem (hB d hd)).2.2.1,
      (h d (hB d hd)).2 (h3 d hd)⟩), h5]

theorem direct_remaining {x : View} {r q : Ref} {n g : Nat} {c : Bool} {p f : Option (Nat × View)} {prev : Option Token}
    {u : Token} (h : ∀ d ∈ gapDecos x r g p f prev u, (placeComment d = ⟨.leading, q⟩ ↔ d.position = .endOfLine)) :
    directTexts r q n c (gapDecos x r g p f prev u) =
      if decide (g ≤ n) = c then remaining (trailingOf prev ++ u.leading) else [] := by
  cases hn : (trailingOf prev ++ u.leading).any (fun p => p.kind == .newline) with
  | false =>
    rw [remaining, hn, direct_none]
    · simp
    · intro d hd he
      have := (gap_position hd).2.2 hn
      rw [(h d hd).1 he] at this
      cases this
  | true =>
    obtain ⟨A, B, h1, h2, h3, h4, -⟩ := gapDecos_lines x r g p f prev u
    have hA : ∀ d ∈ A, d ∈ gapDecos x r g p f prev u := fun d hd => by rw [h1]; exact List.mem_append_left _ hd
    have hB : ∀ d ∈ B, d ∈ gapDecos x r g p f prev u := fun d hd => by rw [h1]; exact List.mem_append_right _ hd
    have hend : ∀ d ∈ A, d.position = .endOfLine := by
      intro d hd
      have e1 := h2 d hd
      have e2 := (gap_position (hA d hd)).2
      cases hp : d.position with
      | endOfLine => rfl
      | ownLine => exact absurd hp e1
      | sameLine =>
        rw [e2.1 hp] at hn
        cases hn
    rw [h1, direct_append, direct_none (C := B) (fun d hd he => by
        have := (h d (hB d hd)).1 he
        rw [h3 d hd] at this
        cases this), List.append_nil,
      direct_all (g := g) (C := A) (fun d hd => ⟨(gapDecos_mem (hA d hd)).1, (gapDecos_mem (hA d hd)).2.2.1,
        (h d (hA d hd)).2 (hend d hd)⟩), h4, remaining, hn]
    rfl

/-! ## Conditions -/

theorem cond_body (hD : ∀ d ∈ D, ∃ s, d.Sound X s) {r : Ref} {e t : Expr} {pre post cs cs' : List (List Byte)}
    (he : Ent X D r e pre post) (hk : e.view.kind = .rIfStatement) (hb : e.view.parts.slot 4 = some t.view)
    (hd : Opens t.view → directTexts r (r ++ [4, 1]) 4 true (e.view.decos r false) = cs ∧
      directTexts r (r ++ [4, 1]) 4 false (e.view.decos r false) = cs') :
    Ent X D (r ++ [4]) t (bodyComments t (pre ++ cs)) cs' := by
  obtain ⟨hz, D1, D2, hs, -, hi⟩ := he
  obtain ⟨D1', D2', hs', hl⟩ := hs.into hb
  refine ⟨nodeAt_child hz hb, D1', D2', hs', ?_, ?_⟩
  · intro ho
    obtain ⟨l1, l2⟩ := hi _ hk hb ho
    obtain ⟨l3, l4⟩ := hl [1]
    obtain ⟨l5, l6⟩ := hd ho
    rw [show r ++ [4] ++ [1] = r ++ 4 :: [1] by simp, l3, l4, l1, l2, l5, l6, bodyComments, opens_braced ho]
    simp
  · intro y hk' _ _
    obtain ⟨l1, l2⟩ := led_out hD hz hs (n := 4) (.inr rfl) (by rw [hk]; simp) (by simp)
    obtain ⟨l3, l4⟩ := hl [4, 1]
    have l5 : ∀ c, directTexts r (r ++ 4 :: [4, 1]) 4 c (e.view.decos r false) = [] := by
      intro c
      refine direct_mem rfl fun d _ hr he hp => ?_
      have := (in_quiet (d := d) (n := 4) (t := [4, 1]) (.inr rfl) (by rw [hp, hr]) (fun _ => by decide)).2
      rcases this with h | h
      · cases h
      · rw [he, hk] at h; cases h
    have hnb : t.isBraced = false := by
      cases t <;> simp only [Expr.view, View.kind, reduceCtorEq] at hk' <;> rfl
    rw [show r ++ [4] ++ [4, 1] = r ++ 4 :: [4, 1] by simp, l3, l4, l1, l2, l5, l5, bodyComments, hnb]
    exact ⟨rfl, rfl⟩

/-- The same except before the `else` clause. -/
theorem direct_gaps5 {z : View} {r q : Ref} {n : Nat} {C : Option Nat → Option Nat → Kind → Prop}
    (hP : ∀ d : Deco, d.ref = r → d.enclosing = z → (∀ p, d.preceding = some p → p.2.isHole = false) →
      at? d.following ≠ some 5 →
      (placeComment d = ⟨.leading, q⟩ ↔ d.position ≠ .sameLine ∧ C (at? d.preceding) (at? d.following) d.followingToken))
    (g : Nat) (p f : Option (Nat × View)) (prev : Option Token) (u : Token) (c : Bool)
    (hp : ∀ q, p = some q → q.2.isHole = false) (hf : at? f ≠ some 5) :
    (C (at? p) (at? f) u.kind → directTexts r q n c (gapDecos z r g p f prev u) =
      if decide (g ≤ n) = c then entering (trailingOf prev ++ u.leading) else []) ∧
    (¬ C (at? p) (at? f) u.kind → directTexts r q n c (gapDecos z r g p f prev u) = []) := by
  have hd : ∀ d ∈ gapDecos z r g p f prev u, (placeComment d = ⟨.leading, q⟩ ↔
      d.position ≠ .sameLine ∧ C (at? p) (at? f) u.kind) := by
    intro d hd
    obtain ⟨h1, h2, -, h4, h5⟩ := gapDecos_mem hd
    rw [hP d h1 h2 (by rw [h4]; exact hp) (by rw [h5]; exact hf), h4, h5, (gap_position hd).1]
  constructor
  · intro hC
    exact direct_gap fun d h => ⟨fun h' => ((hd d h).1 h').1, fun h' => (hd d h).2 ⟨h', hC⟩⟩
  · intro hC
    exact direct_other fun d h h' => hC ((hd d h).1 h').2

theorem if_ent (hD : ∀ d ∈ D, ∃ s, d.Sound X s) {r : Ref} {a : Ann} {kw l rp : Token} {s b : Expr} {g : Bool}
    {pre post : List (List Byte)} (he : Ent X D r (Expr.ite a kw l s rp b) pre post) (hr : rp.kind = .rParen)
    (hg : b.gram g = true) :
    Ent X D (r ++ [4]) b (bodyComments b (pre ++ entering (rp.trailing ++ triviaBefore b.tokens))) [] := by
  refine cond_body hD he rfl rfl fun ho => ?_
  obtain ⟨ts, hs, -⟩ := expr_first s
  obtain ⟨tb, hb, hbt⟩ := expr_first b
  obtain ⟨us, hs', -⟩ := expr_last s
  have gaps := direct_gaps (z := (Expr.ite a kw l s rp b).view) (r := r) (q := r ++ [4, 1]) (n := 4)
    (C := fun p f u => ¬ (p = some 2 ∧ u = .rParen) ∧ f = some 4)
    (fun d h1 h2 hp => h1 ▸ place_if (b := b.view) (by rw [h2]; rfl) hp (by rw [h2]; rfl) (by rw [h2]; rfl) (by rw [h2]; rfl) ho)
  have key : ∀ c, directTexts r (r ++ [4, 1]) 4 c ((Expr.ite a kw l s rp b).view.decos r false) =
      if true = c then entering (rp.trailing ++ triviaBefore b.tokens) else [] := by
    intro c
    generalize hz : (Expr.ite a kw l s rp b).view = z at gaps ⊢
    rw [← hz]
    simp only [Expr.view, View.decos]
    rw [show View.node .rIfStatement _ = z from hz]
    simp only [Parts.decos, subDecos, View.lastOr, hs, hb, hs', Parts.firstSub, direct_append, direct_sub,
      List.nil_append, List.append_nil, if_true, Bool.false_eq_true, if_false, Bool.true_or, Bool.or_true]
    rw [(gaps 1 _ _ _ _ _ no_view).2 (by simp [at?]), (gaps 2 _ _ _ _ _ no_view).2 (by simp [at?]),
      (gaps 3 _ _ _ _ _ (nov _ _)).2 (by simp [hr, at?]),
      (gaps 4 _ _ _ _ _ (nov _ _)).1 ⟨fun h => opens_first ho hg hb h.2, rfl⟩, hbt]
    simp [trailingOf]
  exact ⟨by rw [key]; simp, by rw [key]; simp⟩

theorem then_ent (hD : ∀ d ∈ D, ∃ s, d.Sound X s) {r : Ref} {a ea : Ann} {kw l rp el : Token} {s b e : Expr} {g : Bool}
    {pre post : List (List Byte)} (he : Ent X D r (Expr.itee a kw l s rp b ea el e) pre post) (hr : rp.kind = .rParen)
    (hg : b.gram g = true) :
    Ent X D (r ++ [4]) b (bodyComments b (pre ++ entering (rp.trailing ++ triviaBefore b.tokens)))
      (remaining (triviaAfter b.tokens ++ el.leading)) := by
  refine cond_body hD he rfl rfl fun ho => ?_
  obtain ⟨ts, hs, -⟩ := expr_first s
  obtain ⟨tb, hb, hbt⟩ := expr_first b
  obtain ⟨us, hs', -⟩ := expr_last s
  obtain ⟨ub, hb', hbt'⟩ := expr_last b
  have place : ∀ d : Deco, d.ref = r → d.enclosing = (Expr.itee a kw l s rp b ea el e).view →
      (∀ p, d.preceding = some p → p.2.isHole = false) →
      (placeComment d = ⟨.leading, r ++ [4, 1]⟩ ↔ d.position ≠ .sameLine ∧
        ¬ (at? d.preceding = some 2 ∧ d.followingToken = .rParen) ∧
        (at? d.following = some 4 ∨ (d.position = .endOfLine ∧ at? d.following = some 5))) :=
    fun d h1 h2 hp => h1 ▸ place_ifelse (b := b.view) (by rw [h2]; rfl) hp (by rw [h2]; rfl) (by rw [h2]; rfl)
      (by rw [h2]; rfl) rfl rfl ho
  have gaps := direct_gaps5 (z := (Expr.itee a kw l s rp b ea el e).view) (r := r) (q := r ++ [4, 1]) (n := 4)
    (C := fun p f u => ¬ (p = some 2 ∧ u = .rParen) ∧ f = some 4) (fun d h1 h2 hp h5 => by
      rw [place d h1 h2 hp]
      simp [h5])
  have last : ∀ f prev u c, at? f = some 5 →
      directTexts r (r ++ [4, 1]) 4 c (gapDecos (Expr.itee a kw l s rp b ea el e).view r 5 (some (4, b.view)) f prev u) =
      if false = c then remaining (trailingOf prev ++ u.leading) else [] := by
    intro f prev u c hf
    refine direct_remaining fun d hd => ?_
    obtain ⟨h1, h2, -, h4, h5⟩ := gapDecos_mem hd
    rw [place d h1 h2 (by rw [h4]; exact nov _ _), h4, h5, hf]
    simp only [at?]
    constructor
    · rintro ⟨-, -, h | h⟩
      · cases h
      · exact h.1
    · intro h
      refine ⟨by rw [h]; nofun, by simp, .inr ⟨h, trivial⟩⟩
  have key : ∀ c, directTexts r (r ++ [4, 1]) 4 c ((Expr.itee a kw l s rp b ea el e).view.decos r false) =
      (if true = c then entering (rp.trailing ++ triviaBefore b.tokens) else []) ++
      (if false = c then remaining (triviaAfter b.tokens ++ el.leading) else []) := by
    intro c
    generalize hz : (Expr.itee a kw l s rp b ea el e).view = z at gaps last ⊢
    rw [← hz]
    simp only [Expr.view]
    rw [View.decos, show View.node .rIfStatement _ = z from hz]
    generalize hy : View.node .rElseClause _ = y
    have hfirst : y.first = some el := by rw [← hy]; rfl
    simp only [Parts.decos, subDecos, View.lastOr, hs, hb, hs', hb', hfirst, Parts.firstSub, direct_append, direct_sub,
      List.nil_append, List.append_nil, if_true, Bool.false_eq_true, if_false, Bool.true_or, Bool.or_true]
    rw [(gaps 1 _ _ _ _ _ no_view (by simp [at?])).2 (by simp [at?]),
      (gaps 2 _ _ _ _ _ no_view (by simp [at?])).2 (by simp [at?]),
      (gaps 3 _ _ _ _ _ (nov _ _) (by simp [at?])).2 (by simp [hr, at?]),
      (gaps 4 _ _ _ _ _ (nov _ _) (by simp [at?])).1 ⟨fun h => opens_first ho hg hb h.2, rfl⟩, last _ _ _ _ rfl, hbt, hbt']
    simp [trailingOf]
  exact ⟨by rw [key]; simp, by rw [key]; simp⟩

/-- Comments from outside of a condition do not go to the part after its `else`. -/
theorem out_quiet5 {r : Ref} {d : Deco} (hout : ¬ r <+: d.ref) {t : Ref} (ht : intoBlock t) :
    (placeComment d).target ≠ r ++ 5 :: 1 :: t := by
  intro h
  obtain ⟨s, h1, h2⟩ := route d
  rw [h1] at h
  obtain ⟨p, rfl⟩ : d.ref <+: r := by
    rcases List.prefix_or_prefix_of_prefix (l₁ := r) (l₂ := d.ref) (l₃ := d.ref ++ s)
        (by rw [h]; exact List.prefix_append _ _) (List.prefix_append _ _) with h | h
    · exact absurd h hout
    · exact h
  have hp : p ≠ [] := by
    rintro rfl
    exact hout (by simp)
  rw [List.append_assoc] at h
  have h := List.append_cancel_left h
  obtain ⟨a, p', rfl⟩ := List.exists_cons_of_ne_nil hp
  have hlen := congrArg List.length h
  cases h2 with
  | here => cases h
  | child i => rcases ht with rfl | rfl <;> simp at hlen
  | body i hb => rcases ht with rfl | rfl <;> simp at hlen
  | @alt c y s hk hc hck hy hs =>
    rcases hs with ⟨hy', rfl | ⟨i, rfl⟩⟩ | ⟨hy', rfl | ⟨i, rfl⟩⟩
    · rcases ht with rfl | rfl <;> simp at hlen
    · rcases ht with rfl | rfl <;> simp at hlen
    · rcases ht with rfl | rfl <;> simp at hlen
    · rcases ht with rfl | rfl
      · cases p' with
        | nil => simp at h
        | cons => simp at hlen
      · simp at hlen
  | @els y s hk hy hs =>
    rcases hs with ⟨hy', rfl | ⟨i, rfl⟩⟩ | ⟨hy', rfl | ⟨i, rfl⟩⟩ <;> rcases ht with rfl | rfl <;> simp at hlen

theorem else_ent {r : Ref} {a ea : Ann} {kw l rp el : Token} {s b e : Expr}
    (hn : Node X D r (Expr.itee a kw l s rp b ea el e).view) :
    Ent X D (r ++ [5] ++ [1]) e (laterComments (triviaAfter b.tokens ++ el.leading) ++
      entering (el.trailing ++ triviaBefore e.tokens)) [] := by
  obtain ⟨hz, D1, D2, hs⟩ := hn
  obtain ⟨D1', D2', hs', hl⟩ := hs.into (n := 5) (y := .node .rElseClause (.tok el (.sub e.view .nil))) rfl
  obtain ⟨D1'', D2'', hs'', hl'⟩ := hs'.into (n := 1) (y := e.view) rfl
  obtain ⟨ts, hts, -⟩ := expr_first s
  obtain ⟨tb, hb, -⟩ := expr_first b
  obtain ⟨te, hte, hte'⟩ := expr_first e
  obtain ⟨us, hs1, -⟩ := expr_last s
  obtain ⟨ub, hb', hbt'⟩ := expr_last b
  have main : ∀ t, intoBlock t → (∀ q, placeAlternative q e.view = some ⟨.leading, q ++ t⟩) →
      ledTexts (r ++ [5] ++ [1] ++ t) D1'' = laterComments (triviaAfter b.tokens ++ el.leading) ++
        entering (el.trailing ++ triviaBefore e.tokens) ∧ ledTexts (r ++ [5] ++ [1] ++ t) D2'' = [] := by
    intro t ht halt
    have ht' : t ≠ [] := by rcases ht with rfl | rfl <;> simp
    have place : ∀ d : Deco, d.ref = r → d.enclosing = (Expr.itee a kw l s rp b ea el e).view →
        (∀ p, d.preceding = some p → p.2.isHole = false) →
        (placeComment d = ⟨.leading, r ++ 5 :: 1 :: t⟩ ↔ d.position = .ownLine ∧
          ¬ (at? d.preceding = some 2 ∧ d.followingToken = .rParen) ∧ at? d.following = some 5) :=
      fun d h1 h2 hp => h1 ▸ place_alternative (b := b.view) (by rw [h2]; rfl) hp (by rw [h2]; rfl) (by rw [h2]; rfl)
        (by rw [h2]; rfl) rfl rfl ht' (by rw [halt]; simp)
    have gaps := direct_gaps5 (z := (Expr.itee a kw l s rp b ea el e).view) (r := r) (q := r ++ 5 :: 1 :: t) (n := 5)
      (C := fun _ _ _ => False) (fun d h1 h2 hp h5 => by
        rw [place d h1 h2 hp]
        simp [h5])
    have last : ∀ f prev u c, at? f = some 5 →
        directTexts r (r ++ 5 :: 1 :: t) 5 c (gapDecos (Expr.itee a kw l s rp b ea el e).view r 5 (some (4, b.view)) f prev u) =
        if true = c then laterComments (trailingOf prev ++ u.leading) else [] := by
      intro f prev u c hf
      refine direct_later fun d hd => ?_
      obtain ⟨h1, h2, -, h4, h5⟩ := gapDecos_mem hd
      rw [place d h1 h2 (by rw [h4]; exact nov _ _), h4, h5, hf]
      simp [at?]
    have key : ∀ c, directTexts r (r ++ 5 :: 1 :: t) 5 c ((Expr.itee a kw l s rp b ea el e).view.decos r false) =
        if true = c then laterComments (triviaAfter b.tokens ++ el.leading) else [] := by
      intro c
      generalize hz : (Expr.itee a kw l s rp b ea el e).view = z at gaps last ⊢
      rw [← hz]
      simp only [Expr.view]
      rw [View.decos, show View.node .rIfStatement _ = z from hz]
      generalize hy : View.node .rElseClause _ = y
      have hfirst : y.first = some el := by rw [← hy]; rfl
      simp only [Parts.decos, subDecos, View.lastOr, hts, hb, hs1, hb', hfirst, Parts.firstSub, direct_append, direct_sub,
        List.nil_append, List.append_nil, if_true, Bool.false_eq_true, if_false, Bool.true_or, Bool.or_true]
      rw [(gaps 1 _ _ _ _ _ no_view (by simp [at?])).2 id, (gaps 2 _ _ _ _ _ no_view (by simp [at?])).2 id,
        (gaps 3 _ _ _ _ _ (nov _ _) (by simp [at?])).2 id, (gaps 4 _ _ _ _ _ (nov _ _) (by simp [at?])).2 id,
        last _ _ _ _ rfl, hbt']
      simp [trailingOf]
    have gaps' := direct_gaps (z := View.node .rElseClause (.tok el (.sub e.view .nil))) (r := r ++ [5])
      (q := r ++ [5] ++ 1 :: t) (n := 1) (C := fun _ f _ => f = some 1)
      (fun d h1 h2 hp => h1 ▸ place_else (by rw [h2]; rfl) hp (by rw [h2]; rfl) ht' (by rw [halt]; simp))
    have key' : ∀ c, directTexts (r ++ [5]) (r ++ [5] ++ 1 :: t) 1 c
        ((View.node .rElseClause (.tok el (.sub e.view .nil))).decos (r ++ [5]) false) =
        if true = c then entering (el.trailing ++ triviaBefore e.tokens) else [] := by
      intro c
      rw [View.decos]
      generalize View.node .rElseClause (.tok el (.sub e.view .nil)) = z at gaps' ⊢
      simp only [Parts.decos, subDecos, hte, direct_append, direct_sub, List.nil_append, List.append_nil, if_true,
        Bool.false_eq_true, if_false]
      rw [(gaps' 1 _ _ _ _ _ no_view).1 rfl, hte']
      simp [trailingOf]
    have outs : ∀ C, (∀ d ∈ C, ¬ r <+: d.ref) → ledTexts (r ++ 5 :: 1 :: t) C = [] := by
      intro C hC
      refine ledTexts_none fun d hd he => ?_
      exact out_quiet5 (hC d hd) ht (by rw [he])
    obtain ⟨l1, l2⟩ := hl (1 :: t)
    obtain ⟨l3, l4⟩ := hl' t
    rw [show r ++ [5] ++ [1] ++ t = r ++ [5] ++ 1 :: t by simp, l3, l4, key', key',
      show r ++ [5] ++ 1 :: t = r ++ 5 :: 1 :: t by simp, l1, l2, key, key, outs D1 (fun d hd => (hs.before d hd).1),
      outs D2 (fun d hd => (hs.after d hd).1)]
    simp
  refine ⟨nodeAt_child (nodeAt_child hz rfl) rfl, D1'', D2'', hs'', ?_, ?_⟩
  · intro ho
    refine main [1] (.inl rfl) fun q => ?_
    rw [placeAlternative, if_neg (by rw [ho.1]; nofun), opens_body ho]
  · intro y hk h4 ho
    refine main [4, 1] (.inr rfl) fun q => ?_
    rw [placeAlternative, if_pos hk, h4]
    simp [opens_body ho]

end Verif.Format
