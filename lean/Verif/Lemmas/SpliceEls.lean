import Verif.Lemmas.FormatSource
import Verif.Lemmas.LexGlue

/-!
# Replacing a part of printed elements
-/

namespace Verif.Format
open Verif.Syntax

/-! ## What a reader sees -/

theorem seen_short (s : RState) (x : List El) : (seen s x).length ≤ (printedToks x).length := by
  induction x generalizing s with
  | nil => exact Nat.le_refl _
  | cons e x ih =>
    have := ih (s.after e)
    cases e <;> simp only [seen, printedToks, List.nil_append] <;> try exact this
    split
    · simp only [List.nil_append, List.length_cons]; omega
    · simp only [List.cons_append, List.nil_append, List.length_cons]; omega

/-- Only the first token is seen differently from another state. -/
theorem seen_retag {s s' : RState} (hs : s ≠ .comment) (hs' : s' ≠ .comment) (x : List El) :
    (seen s x = seen s' x ∨ ∃ b b' t r, seen s x = (b, t) :: r ∧ seen s' x = (b', t) :: r) ∧
      (printedToks x ≠ [] → endState s x = endState s' x) := by
  induction x generalizing s s' with
  | nil => exact ⟨.inl rfl, fun h => absurd rfl h⟩
  | cons e x ih =>
    cases e with
    | tok t =>
      have h1 : s.after (.tok t) = .inside := if_neg hs
      have h2 : s'.after (.tok t) = .inside := if_neg hs'
      refine ⟨.inr ⟨decide (s = .fresh), decide (s' = .fresh), t, seen .inside x, ?_, ?_⟩, ?_⟩
      · rw [seen, h1]; simp [if_neg hs]
      · rw [seen, h2]; simp [if_neg hs']
      · intro _; rw [endState, endState, h1, h2]
    | suffix l i t => exact ih hs hs'
    | space => exact ih hs hs'
    | nl b i => exact ⟨.inl rfl, fun _ => rfl⟩
    | rnl => exact ⟨.inl rfl, fun _ => rfl⟩
    | comment t => exact ⟨.inl rfl, fun _ => rfl⟩
    | blank bs =>
      have key : ∀ {s : RState}, s ≠ .comment → s.after (.blank bs) ≠ .comment := by
        intro s hs
        simp only [RState.after]
        split
        · simp
        · exact hs
      exact ih (key hs) (key hs')

/-- The first token seen from the start of a line is after a line break. -/
theorem seen_first {s : RState} (hs : s ≠ .inside) {x : List El} {b : Bool} {t : Tok} {r : List (Bool × Tok)}
    (h : seen s x = (b, t) :: r) : b = true := by
  induction x generalizing s with
  | nil => cases h
  | cons e x ih =>
    cases e with
    | tok u =>
      rw [seen] at h
      by_cases hc : s = .comment
      · simp only [hc, if_true, List.nil_append, RState.after] at h
        exact ih (by simp) h
      · have : s = .fresh := by cases s <;> simp_all
        subst this
        simp at h
        exact h.1.1
    | suffix l i t => exact ih hs h
    | space => exact ih hs h
    | nl b i => exact ih (s := .fresh) (by simp) h
    | rnl => exact ih (s := .fresh) (by simp) h
    | comment t => exact ih (s := .comment) (by simp) h
    | blank bs =>
      refine ih (s := s.after (.blank bs)) ?_ h
      simp only [RState.after]
      split
      · simp
      · exact hs

/-- If all tokens are seen after a comment, a line break comes first. -/
theorem seen_landed {x : List El} (h : (seen .comment x).length = (printedToks x).length) (s : RState) :
    seen s x = seen .comment x := by
  induction x generalizing s with
  | nil => rfl
  | cons e x ih =>
    cases e with
    | tok t =>
      exfalso
      have h : (seen .comment x).length = (printedToks x).length + 1 := h
      have := seen_short .comment x
      omega
    | suffix l i t => exact ih h s
    | space => exact ih h s
    | nl b i => rfl
    | rnl => rfl
    | comment t => rfl
    | blank bs =>
      have h' : (seen .comment x).length = (printedToks x).length := by
        simpa [seen, printedToks, RState.after] using h
      have h1 : seen .comment (.blank bs :: x) = seen .comment x := by simp [seen, RState.after]
      rw [h1]
      exact ih h' _

/-- Nothing is hidden by a comment at the end of what comes before. -/
theorem noTok_landed {x : List El} (h : printedToks x = []) (s : RState) : seen s x = [] := by
  have := seen_short s x
  rw [h] at this
  exact List.eq_nil_of_length_eq_zero (by simpa using this)

theorem fits_length {ps : List (Pos × Tok)} {us : List (Bool × Tok)} (h : Fits ps us) : us.length = ps.length := by
  have := congrArg List.length (fits_toks h)
  simpa using this

/-- If line breaks do not matter before the first token, the state does not. -/
theorem fits_refree {ps : List (Pos × Tok)} {x : List El} {s s' : RState} (hs : s ≠ .comment) (hs' : s' ≠ .comment)
    (hp : ∀ y ∈ ps.head?, y.1 = .free) (h : Fits ps (seen s x)) : Fits ps (seen s' x) := by
  rcases (seen_retag hs hs' x).1 with h1 | ⟨b, b', t, r, h1, h2⟩
  · rw [← h1]; exact h
  · rw [h1] at h
    rw [h2]
    cases ps with
    | nil => exact h
    | cons p ps =>
      obtain ⟨q, u⟩ := p
      have := hp _ rfl
      simp only at this
      subst this
      exact ⟨h.1, trivial, h.2.2⟩

/-- A line break may be added before the first token unless it is forbidden there. -/
theorem fits_fresh {ps : List (Pos × Tok)} {x : List El} {s : RState} (hs : s ≠ .comment)
    (hp : ∀ y ∈ ps.head?, y.1 ≠ .forbid) (h : Fits ps (seen s x)) : Fits ps (seen .fresh x) := by
  rcases (seen_retag hs (s' := .fresh) (by simp) x).1 with h1 | ⟨b, b', t, r, h1, h2⟩
  · rw [← h1]; exact h
  · have hb := seen_first (s := .fresh) (by simp) h2
    subst hb
    rw [h1] at h
    rw [h2]
    cases ps with
    | nil => exact h
    | cons p ps =>
      obtain ⟨q, u⟩ := p
      have := hp _ rfl
      refine ⟨h.1, ?_, h.2.2⟩
      cases q
      · trivial
      · simp at this
      · rfl

/-- From the start of a line. -/
theorem fits_need {p : Pos} {ps : List (Pos × Tok)} {x : List El} (h : Fits (setHead .free ps) (seen .fresh x))
    (hp : p ≠ .forbid) : Fits (setHead p ps) (seen .fresh x) := by
  cases ps with
  | nil => exact h
  | cons q ps =>
    cases hs : seen .fresh x with
    | nil => rw [hs] at h; exact h
    | cons u us =>
      rw [hs] at h
      obtain ⟨b, t⟩ := u
      have hb := seen_first (s := .fresh) (by simp) hs
      subst hb
      refine ⟨h.1, ?_, h.2.2⟩
      cases p
      · trivial
      · exact absurd rfl hp
      · rfl

/-! ## Tokens that stay apart -/

/-- The token at the very start. -/
def direct : List El → Option Tok
  | .tok u :: _ => some u
  | .suffix .. :: es => direct es
  | .blank bs :: es => if bs = [] then direct es else none
  | _ => none

/-- Another token may come before if it stays apart from the one at the start. -/
theorem glued_switch {s s' : Option Tok} {els : List El} (h : Glued s els) (hs : NoStr s')
    (hd : ∀ u, direct els = some u → Follows s' u) : Glued s' els := by
  induction els with
  | nil => trivial
  | cons e els ih =>
    cases e with
    | tok u => exact ⟨hd u rfl, h.2⟩
    | suffix l i t => exact ⟨hs, ih h.2 hd⟩
    | blank bs =>
      refine ⟨hs, ?_⟩
      by_cases hb : bs = []
      · have h2 := h.2
        rw [if_pos hb] at h2 ⊢
        exact ih h2 (by simpa [direct, hb] using hd)
      · have h2 := h.2
        rw [if_neg hb] at h2 ⊢
        exact h2
    | space => exact ⟨hs, h.2⟩
    | nl => exact ⟨hs, h.2⟩
    | comment => exact ⟨hs, h.2⟩
    | rnl => exact ⟨hs, h.2⟩

theorem noStr_switch {s s' : Option Tok} {els : List El} (hs : NoStr s') (h : NoStr (glueEnd s els)) :
    NoStr (glueEnd s' els) := by
  induction els with
  | nil => exact hs
  | cons e els ih =>
    cases e with
    | blank bs =>
      by_cases hb : bs = []
      · simp only [glueEnd, if_pos hb] at h ⊢; exact ih h
      · simp only [glueEnd, if_neg hb] at h ⊢; exact h
    | suffix l i t => exact ih h
    | tok u => exact h
    | space => exact h
    | nl => exact h
    | comment => exact h
    | rnl => exact h

/-- The token at the very start is seen without a line break. -/
theorem direct_seen {s : RState} {els : List El} {u : Tok} (h : direct els = some u) :
    (s = .comment → (seen s els).length < (printedToks els).length) ∧
      (s = .inside → ∃ r, seen s els = (false, u) :: r) := by
  induction els with
  | nil => cases h
  | cons e els ih =>
    cases e with
    | tok v =>
      cases h
      constructor
      · rintro rfl
        have : seen .comment (.tok u :: els) = seen .comment els := by simp [seen, RState.after]
        rw [this]
        have := seen_short .comment els
        simp only [printedToks, List.length_cons]; omega
      · rintro rfl; simp [seen]
    | suffix l i t => exact ih h
    | blank bs =>
      by_cases hb : bs = []
      · subst hb
        have ih := ih (by simpa [direct] using h)
        have hs : seen s (.blank [] :: els) = seen s els := by simp [seen, RState.after]
        rw [hs]
        exact ih
      · simp [direct, hb] at h
    | space => cases h
    | nl => cases h
    | comment => cases h
    | rnl => cases h

theorem endState_comment {x : List El} (h : printedComments x = []) {s : RState} (hs : s ≠ .comment) :
    endState s x ≠ .comment := by
  induction x generalizing s with
  | nil => exact hs
  | cons e x ih =>
    cases e with
    | tok t => exact ih h (by simp [RState.after, hs])
    | comment t => simp [printedComments] at h
    | suffix l i t => simp [printedComments] at h
    | space => exact ih h hs
    | nl => exact ih (s := .fresh) h (by simp)
    | rnl => exact ih (s := .fresh) h (by simp)
    | blank bs =>
      refine ih h (s := s.after (.blank bs)) ?_
      simp only [RState.after]
      split
      · simp
      · exact hs

/-- The token directly before the end. -/
theorem glueEnd_some {s : Option Tok} {els : List El} {t : Tok} (h : glueEnd s els = some t) :
    ((∃ r, printedToks els = r ++ [t]) ∨ printedToks els = [] ∧ s = some t) := by
  induction els generalizing s with
  | nil => exact .inr ⟨rfl, h⟩
  | cons e els ih =>
    cases e with
    | tok u =>
      rcases ih h with ⟨r, h1⟩ | ⟨h1, h2⟩
      · exact .inl ⟨u :: r, by simp [printedToks, h1]⟩
      · cases h2; exact .inl ⟨[], by simp [printedToks, h1]⟩
    | suffix l i t => exact ih h
    | blank bs =>
      by_cases hb : bs = []
      · simp only [glueEnd, if_pos hb] at h; exact ih h
      · simp only [glueEnd, if_neg hb] at h
        rcases ih h with h | ⟨-, h⟩
        · exact .inl h
        · cases h
    | space =>
      rcases ih (s := none) h with h | ⟨-, h⟩
      · exact .inl h
      · cases h
    | nl =>
      rcases ih (s := none) h with h | ⟨-, h⟩
      · exact .inl h
      · cases h
    | comment =>
      rcases ih (s := none) h with h | ⟨-, h⟩
      · exact .inl h
      · cases h
    | rnl =>
      rcases ih (s := none) h with h | ⟨-, h⟩
      · exact .inl h
      · cases h

/-- Directly after a token no line starts. -/
theorem glueEnd_state {o : Option Tok} {s : RState} {els : List El} {t : Tok} (ho : o ≠ none → s ≠ .fresh)
    (h : glueEnd o els = some t) : endState s els ≠ .fresh := by
  induction els generalizing o s with
  | nil => exact ho (by rw [show o = some t from h]; simp)
  | cons e els ih =>
    cases e with
    | tok u =>
      refine ih (o := some u) (fun _ => ?_) h
      simp only [RState.after]; split <;> simp
    | suffix l i t => exact ih ho h
    | blank bs =>
      by_cases hb : bs = []
      · subst hb
        simp only [glueEnd, if_true] at h
        refine ih ho h |> fun x => ?_
        simpa [endState, RState.after] using x
      · simp only [glueEnd, if_neg hb] at h
        exact ih (o := none) (fun h => absurd rfl h) h
    | space => exact ih (o := none) (fun h => absurd rfl h) h
    | nl => exact ih (o := none) (fun h => absurd rfl h) h
    | comment => exact ih (o := none) (fun h => absurd rfl h) h
    | rnl => exact ih (o := none) (fun h => absurd rfl h) h

end Verif.Format
