import Verif.Lemmas.FormatMain

/-!
# The printer

Postponing comments to the end of the line and leaving out superfluous line breaks changes neither
the tokens nor where lines end between them.
-/

namespace Verif.Format
open Verif.Syntax

/-- No tokens among the instructions. -/
def NoTok (x : List El) : Prop := printedToks x = []

theorem seen_noTok {x : List El} (h : NoTok x) (s : RState) : seen s x = [] := by
  induction x generalizing s with
  | nil => rfl
  | cons e x ih =>
    unfold NoTok at h
    cases e <;> simp only [printedToks] at h <;>
      first
      | exact absurd h (by simp)
      | (simp only [seen, List.nil_append]; exact ih h _)

theorem NoTok.append {x y : List El} (hx : NoTok x) (hy : NoTok y) : NoTok (x ++ y) := by
  unfold NoTok at *
  rw [printedToks_append, hx, hy]; rfl

theorem seen_append_noTok {x : List El} (h : NoTok x) (s : RState) (y : List El) :
    seen s (x ++ y) = seen (endState s x) y := by
  rw [seen_append, seen_noTok h, List.nil_append]

/-- Indentation and pending spaces. -/
def pendingEls (s : PState) : List El :=
  (if s.ind = 0 then [] else [.blank (List.replicate s.ind 9)]) ++
    (if s.space then [.blank [32]] else [])

theorem pending_noTok (s : PState) : NoTok (pendingEls s) := by
  unfold pendingEls NoTok
  split <;> split <;> rfl

theorem pending_state (s : PState) (r : RState) : endState r (pendingEls s) = r := by
  have h9 : (List.replicate s.ind (9 : Byte)).contains 59 = false := by simp
  unfold pendingEls
  split <;> split <;> simp [endState, RState.after, h9]

theorem pending_comments (s : PState) : printedComments (pendingEls s) = [] := by
  unfold pendingEls
  split <;> split <;> rfl

theorem printText_eq (s : PState) (e : El) :
    printText s e = (pendingEls s ++ [e],
      { s with started := true, space := false, ind := 0, emptyLine := false }) := rfl

theorem printedComments_append (x y : List El) :
    printedComments (x ++ y) = printedComments x ++ printedComments y := by
  induction x with
  | nil => rfl
  | cons e x ih => cases e <;> simp [printedComments, ih]

theorem printNl_noTok (s : PState) (e : Bool) (i : Nat) : NoTok (printNl s e i).1 := by
  unfold printNl NoTok
  simp only
  split <;> split <;> rfl

theorem printNl_comments (s : PState) (e : Bool) (i : Nat) :
    printedComments (printNl s e i).1 = [] := by
  unfold printNl
  simp only
  split <;> split <;> rfl

/-- The reader and the printer agree on where a line starts. -/
def Agree (s : PState) (r : RState) : Prop := s.started = false → r = .fresh

theorem printNl_state {s : PState} {r : RState} (h : Agree s r) (e : Bool) (i : Nat) :
    endState r (printNl s e i).1 = .fresh := by
  unfold printNl
  simp only
  cases hs : s.started with
  | true => rw [if_pos rfl]; split <;> rfl
  | false => rw [h hs, if_neg (by decide)]; split <;> rfl

/-- One postponed comment. -/
theorem printSuffix_spec (s : PState) (x : Option Bool × Nat × List Byte) (r : RState) :
    NoTok (printSuffix s x).1 ∧ (printSuffix s x).2.started = true ∧
      (printSuffix s x).2.sfx = s.sfx ∧ printedComments (printSuffix s x).1 = [x.2.2] ∧
      endState r (printSuffix s x).1 = .comment := by
  obtain ⟨l, i, t⟩ := x
  cases l with
  | none =>
    simp only [printSuffix, printText_eq]
    refine ⟨(pending_noTok _).append rfl, trivial, rfl, ?_, ?_⟩
    · rw [printedComments_append, pending_comments]; rfl
    · rw [endState_append]; rfl
  | some e =>
    simp only [printSuffix, printText_eq]
    refine ⟨(printNl_noTok _ _ _).append ((pending_noTok _).append rfl), trivial, rfl, ?_, ?_⟩
    · rw [printedComments_append, printedComments_append, printNl_comments, pending_comments]; rfl
    · rw [endState_append, endState_append]; rfl

theorem printSuffixes_spec (xs : List (Option Bool × Nat × List Byte)) (s : PState) (r : RState)
    (h : Agree s r) :
    NoTok (printSuffixes s xs).1 ∧ (printSuffixes s xs).2.sfx = s.sfx ∧
      printedComments (printSuffixes s xs).1 = xs.map (·.2.2) ∧
      Agree (printSuffixes s xs).2 (endState r (printSuffixes s xs).1) := by
  induction xs generalizing s r with
  | nil => exact ⟨rfl, rfl, rfl, h⟩
  | cons x xs ih =>
    obtain ⟨h1, h2, h3, h4, h5⟩ := printSuffix_spec s x r
    have hA : Agree (printSuffix s x).2 (endState r (printSuffix s x).1) := by
      intro hf; rw [h2] at hf; cases hf
    obtain ⟨i1, i2, i3, i4⟩ := ih (printSuffix s x).2 _ hA
    simp only [printSuffixes]
    refine ⟨h1.append i1, by rw [i2, h3], ?_, ?_⟩
    · rw [printedComments_append, h4, i3]; rfl
    · rw [endState_append]; exact i4

theorem flush_spec (s : PState) (r : RState) (h : Agree s r) :
    NoTok (flush s).1 ∧ (flush s).2.sfx = [] ∧
      printedComments (flush s).1 = s.sfx.map (·.2.2) ∧
      Agree (flush s).2 (endState r (flush s).1) :=
  printSuffixes_spec s.sfx { s with sfx := [] } r h

theorem printNl_agree (s : PState) (r : RState) (h : Agree s r) (e : Bool) (i : Nat) :
    Agree (printNl s e i).2 (endState r (printNl s e i).1) := by
  intro _
  exact printNl_state h e i

/-- What a reader sees in the printed text is what it sees in the instructions. -/
theorem seen_printEls (els : List El) (s : PState) (r : RState) (h : Agree s r) :
    seen r (printEls s els) = seen r els := by
  induction els generalizing s r with
  | nil => exact seen_noTok (flush_spec s r h).1 r
  | cons e els ih =>
    have text : ∀ e : El, printEl s e = printText s e →
        seen r (printEls s (e :: els)) = seen r (e :: els) := by
      intro e he
      simp only [printEls, he, printText_eq]
      rw [List.append_assoc, seen_append_noTok (pending_noTok s), pending_state]
      show _ ++ seen (r.after e) (printEls _ els) = _ ++ seen (r.after e) _
      rw [ih]
      intro hf
      cases hf
    cases e with
    | tok t => exact text _ rfl
    | comment t => exact text _ rfl
    | blank b => exact text _ rfl
    | suffix l i t =>
      simp only [printEls, printEl, List.nil_append]
      rw [ih _ r (by exact h)]
      rfl
    | space =>
      simp only [printEls, printEl, List.nil_append]
      rw [ih _ r (by exact h)]
      rfl
    | nl e i =>
      obtain ⟨h1, h2, -, h4⟩ := flush_spec s r h
      simp only [printEls, printEl]
      have hn := printNl_state h4 e i
      rw [seen_append_noTok (h1.append (printNl_noTok _ _ _)), endState_append, hn,
        ih _ .fresh (fun _ => rfl)]
      rfl
    | rnl =>
      simp only [printEls, printEl, printText_eq]
      rw [List.append_assoc, seen_append_noTok (pending_noTok s), pending_state]
      show _ ++ seen .fresh (printEls _ els) = _ ++ seen .fresh _
      rw [ih _ .fresh (fun _ => rfl)]

theorem seen_emit (els : List El) : seen .fresh (emit els) = seen .fresh els :=
  seen_printEls els {} .fresh fun _ => rfl

/-- The printer prints every token once and in order. -/
theorem printedToks_printEls (els : List El) (s : PState) :
    printedToks (printEls s els) = printedToks els := by
  induction els generalizing s with
  | nil =>
    have : NoTok (flush s).1 := by
      cases hs : s.started with
      | true => exact (flush_spec s .fresh fun _ => rfl).1
      | false => exact (flush_spec s .fresh fun _ => rfl).1
    exact this
  | cons e els ih =>
    have hp := pending_noTok s
    unfold NoTok at hp
    cases e with
    | nl e i =>
      obtain ⟨h1, -⟩ := flush_spec s .fresh fun _ => rfl
      have h2 := printNl_noTok (flush s).2 e i
      unfold NoTok at h1 h2
      simp only [printEls, printEl, printedToks_append, ih, h1, h2]
      rfl
    | suffix l i t => simp only [printEls, printEl, List.nil_append, ih]; rfl
    | space => simp only [printEls, printEl, List.nil_append, ih]; rfl
    | _ =>
      simp only [printEls, printEl, printText_eq, printedToks_append, ih, hp, List.nil_append]
      rfl

theorem printedToks_emit (els : List El) : printedToks (emit els) = printedToks els :=
  printedToks_printEls els {}

/-- The printer prints every comment once. -/
theorem printedComments_printEls (els : List El) (s : PState) :
    (printedComments (printEls s els)).Perm (s.sfx.map (·.2.2) ++ printedComments els) := by
  induction els generalizing s with
  | nil =>
    rw [show printEls s [] = (flush s).1 from rfl, (flush_spec s .fresh fun _ => rfl).2.2.1]
    simp [printedComments]
  | cons e els ih =>
    have hp := pending_comments s
    cases e with
    | nl e i =>
      obtain ⟨-, h2, h1, -⟩ := flush_spec s .fresh fun _ => rfl
      have h3 := printNl_comments (flush s).2 e i
      simp only [printEls, printEl, printedComments_append, h1, h3, List.append_nil]
      refine List.Perm.append_left _ ((ih _).trans ?_)
      have : (printNl (flush s).2 e i).2.sfx = [] := h2
      rw [this]
      exact List.Perm.refl _
    | suffix l i t =>
      simp only [printEls, printEl, List.nil_append]
      refine (ih _).trans ?_
      simp only [List.map_append, List.map_cons, List.map_nil, printedComments, List.append_assoc]
      exact List.Perm.refl _
    | space =>
      simp only [printEls, printEl, List.nil_append]
      exact ih _
    | comment t =>
      simp only [printEls, printEl, printText_eq, printedComments_append, hp, List.nil_append]
      refine List.Perm.trans (l₂ := [t] ++ (s.sfx.map (·.2.2) ++ printedComments els))
        (List.Perm.append_left _ (ih _)) ?_
      simp only [printedComments]
      show (t :: (s.sfx.map (·.2.2) ++ printedComments els)).Perm _
      exact List.perm_middle.symm
    | _ =>
      simp only [printEls, printEl, printText_eq, printedComments_append, hp, List.nil_append]
      exact ih _

theorem printedComments_emit (els : List El) :
    (printedComments (emit els)).Perm (printedComments els) := by
  have := printedComments_printEls els {}
  exact this

end Verif.Format
