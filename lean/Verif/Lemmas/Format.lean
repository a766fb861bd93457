import Verif.Spec.Format

/-!
# Reading printed text: composition lemmas
-/

namespace Verif.Format
open Verif.Syntax

variable {st : Bool}

theorem seen_append (s : RState) (x y : List El) :
    seen s (x ++ y) = seen s x ++ seen (endState s x) y := by
  induction x generalizing s with
  | nil => rfl
  | cons e x ih => simp only [List.cons_append, seen, endState, ih, List.append_assoc]

theorem endState_append (s : RState) (x y : List El) :
    endState s (x ++ y) = endState (endState s x) y := by
  induction x generalizing s with
  | nil => rfl
  | cons e x ih => simp only [List.cons_append, endState, ih]

theorem printedToks_append (x y : List El) :
    printedToks (x ++ y) = printedToks x ++ printedToks y := by
  induction x with
  | nil => rfl
  | cons e x ih => cases e <;> simp [printedToks, ih]

theorem Fits.append {a b : List (Pos × Tok)} {x y : List (Bool × Tok)} (h : Fits a x)
    (h' : Fits b y) : Fits (a ++ b) (x ++ y) := by
  induction a generalizing x with
  | nil => cases x with
    | nil => exact h'
    | cons _ _ => cases h
  | cons p a ih =>
    cases x with
    | nil => cases h
    | cons u x => exact ⟨h.1, h.2.1, ih h.2.2⟩

theorem Reads.append {P Q R : RState → Prop} {a b : List (Pos × Tok)} {x y : List El}
    (h : Reads st P a Q x) (h' : Reads st Q b R y) : Reads st P (a ++ b) R (x ++ y) := by
  refine ⟨fun hw s hs => ?_, by rw [printedToks_append, h.2, h'.2, List.map_append]⟩
  have h1 := h.1 hw s hs
  have h2 := h'.1 hw _ h1.2
  rw [seen_append, endState_append]
  exact ⟨h1.1.append h2.1, h2.2⟩

/-- Text without tokens in front. -/
theorem Reads.pre {P Q R : RState → Prop} {b : List (Pos × Tok)} {x y : List El}
    (h : Reads st P [] Q x) (h' : Reads st Q b R y) : Reads st P b R (x ++ y) := h.append h'

/-- Text without tokens behind. -/
theorem Reads.post {P Q R : RState → Prop} {a : List (Pos × Tok)} {x y : List El}
    (h : Reads st P a Q x) (h' : Reads st Q [] R y) : Reads st P a R (x ++ y) := by
  have := h.append h'
  rwa [List.append_nil] at this

theorem Reads.imp {P P' Q Q' : RState → Prop} {a : List (Pos × Tok)} {x : List El}
    (h : Reads st P a Q x) (hp : ∀ s, P' s → P s) (hq : ∀ s, Q s → Q' s) : Reads st P' a Q' x :=
  ⟨fun hw s hs => ⟨(h.1 hw s (hp s hs)).1, hq _ (h.1 hw s (hp s hs)).2⟩, h.2⟩

theorem In.nc {s : RState} (h : In s) : Nc s := by unfold In at h; subst h; intro h; cases h
theorem Fr.nc {s : RState} (h : Fr s) : Nc s := by unfold Fr at h; subst h; intro h; cases h
theorem Nc.an {s : RState} (_ : Nc s) : An s := trivial
theorem any_an {P : RState → Prop} (s : RState) (_ : P s) : An s := trivial

theorem Reads.ofNc {P Q : RState → Prop} {a : List (Pos × Tok)} {x : List El}
    (h : Reads st Nc a Q x) (hp : ∀ s, P s → Nc s) : Reads st P a Q x := h.imp hp fun _ h => h

theorem reads_nil (P : RState → Prop) : Reads st P [] P [] := ⟨fun _ _ hs => ⟨trivial, hs⟩, rfl⟩

theorem reads_tok (t : Tok) : Reads st Nc [(.free, t)] In [.tok t] := by
  refine ⟨fun _ s hs => ?_, rfl⟩
  have hs' : ¬ s = RState.comment := hs
  simp [seen, endState, RState.after, hs', Fits, Pos.Ok, In]

theorem reads_tok_forbid (t : Tok) : Reads st In [(.forbid, t)] In [.tok t] := by
  refine ⟨fun _ s hs => ?_, rfl⟩
  cases hs
  simp [seen, endState, RState.after, Fits, Pos.Ok, In]

/-- Before an operator: either line breaks do not matter, or the previous token is on the line. -/
theorem reads_tok_op (g : Region) (t : Tok) {P : RState → Prop} (hp : ∀ s, P s → Nc s)
    (h : st = true → g.op = .forbid → ∀ s, P s → In s) : Reads st P [(g.op, t)] In [.tok t] := by
  refine ⟨fun hw => ?_, rfl⟩
  cases hg : g.op with
  | free => exact ((reads_tok t).ofNc hp).1 hw
  | forbid => exact ((reads_tok_forbid t).imp (h hw hg) fun _ h => h).1 hw
  | need => cases g <;> cases hg

theorem reads_tok_els (g : Region) (t : Tok) {P : RState → Prop} (hp : ∀ s, P s → Nc s)
    (h : st = true → g.els = .forbid → ∀ s, P s → In s) : Reads st P [(g.els, t)] In [.tok t] := by
  refine ⟨fun hw => ?_, rfl⟩
  cases hg : g.els with
  | free => exact ((reads_tok t).ofNc hp).1 hw
  | forbid => exact ((reads_tok_forbid t).imp (h hw hg) fun _ h => h).1 hw
  | need => cases g <;> cases hg

theorem reads_space (P : RState → Prop) : Reads st P [] P [.space] := ⟨fun _ _ hs => ⟨trivial, hs⟩, rfl⟩
theorem reads_suffix (P : RState → Prop) (l : Option Bool) (i : Nat) (t : List Byte) :
    Reads st P [] P [.suffix l i t] := ⟨fun _ _ hs => ⟨trivial, hs⟩, rfl⟩
theorem reads_nl (e : Bool) (i : Nat) : Reads st An [] Fr [.nl e i] := ⟨fun _ _ _ => ⟨trivial, rfl⟩, rfl⟩
theorem reads_rnl : Reads st An [] Fr [.rnl] := ⟨fun _ _ _ => ⟨trivial, rfl⟩, rfl⟩
theorem reads_comment (t : List Byte) : Reads st An [] An [.comment t] :=
  ⟨fun _ _ _ => ⟨trivial, trivial⟩, rfl⟩

theorem reads_pad (P : RState → Prop) (n : Nat) :
    Reads st P [] P (padEls n) := by
  unfold padEls
  split
  · exact ⟨fun _ s hs => ⟨trivial, hs⟩, rfl⟩
  refine ⟨fun _ s hs => ⟨trivial, ?_⟩, rfl⟩
  have : (List.replicate n (32 : Byte)).contains 59 = false := by
    simp
  simp only [endState, RState.after, this]
  simpa using hs

theorem reads_nil_iff (P Q : RState → Prop) (h : ∀ s, P s → Q s) : Reads st P [] Q [] :=
  ⟨fun _ s hs => ⟨trivial, h s hs⟩, rfl⟩

/-! ## Requirement on the first token -/

theorem Reads.setHead_need {ps : List (Pos × Tok)} {Q : RState → Prop} {x : List El}
    (h : Reads st Nc ps Q x) (hf : ∀ p ∈ ps.head?, p.1 = .free) : Reads st Fr (setHead .need ps) Q x := by
  have hm : (setHead .need ps).map Prod.snd = ps.map Prod.snd := by cases ps <;> rfl
  refine ⟨fun hw s hs => ?_, by rw [h.2, hm]⟩
  cases hs
  have h1 := h.1 hw .fresh (Fr.nc rfl)
  refine ⟨?_, h1.2⟩
  have key : ∀ (x : List El) (s : RState), s ≠ .inside → ∀ b t r, seen s x = (b, t) :: r → b = true := by
    intro x
    induction x with
    | nil => intro s _ b t r h; cases h
    | cons e x ih =>
      intro s hs b t r h
      cases e <;> simp only [seen, List.nil_append] at h
      case tok u =>
        cases s
        · simp at h; exact h.1.1
        · exact absurd rfl hs
        · simp at h
          exact ih _ (by simp [RState.after]) _ _ _ h
      all_goals
        refine ih _ ?_ _ _ _ h
        cases s <;> simp_all [RState.after]
  cases ps with
  | nil => exact h1.1
  | cons p ps =>
    obtain ⟨p, t⟩ := p
    cases hx : seen .fresh x with
    | nil => rw [hx] at h1; exact h1.1.elim
    | cons u us =>
      obtain ⟨b, u⟩ := u
      rw [hx] at h1
      exact ⟨h1.1.1, key _ _ (by decide) _ _ _ hx, h1.1.2.2⟩

theorem setHead_free {ps : List (Pos × Tok)} (hf : ∀ p ∈ ps.head?, p.1 = .free) :
    setHead .free ps = ps := by
  cases ps with
  | nil => rfl
  | cons p ps => obtain ⟨p, t⟩ := p; have := hf (p, t) rfl; simp only at this; subst this; rfl

/-- Text that starts with its first token. -/
theorem Reads.forbid_head {t : Tok} {ps : List (Pos × Tok)} {Q : RState → Prop} {x : List El}
    (h : Reads st Nc ((.free, t) :: ps) Q (.tok t :: x)) : Reads st In ((.forbid, t) :: ps) Q (.tok t :: x) := by
  refine ⟨fun hw s hs => ?_, h.2⟩
  cases hs
  have h1 := h.1 hw .inside (In.nc rfl)
  simp only [seen, endState, RState.after] at h1 ⊢
  exact ⟨⟨rfl, rfl, h1.1.2.2⟩, h1.2⟩

theorem Reads.op_head {g : Region} {t : Tok} {ps : List (Pos × Tok)} {P Q : RState → Prop}
    {x : List El} (h : Reads st Nc ((.free, t) :: ps) Q (.tok t :: x)) (hp : ∀ s, P s → Nc s)
    (hi : st = true → g.op = .forbid → ∀ s, P s → In s) :
    Reads st P ((g.op, t) :: ps) Q (.tok t :: x) := by
  refine ⟨fun hw => ?_, h.2⟩
  cases hg : g.op with
  | free => exact (h.ofNc hp).1 hw
  | forbid => exact (h.forbid_head.imp (hi hw hg) fun _ h => h).1 hw
  | need => cases g <;> cases hg

/-! ## Shapes start with a free token -/

theorem head_append {α : Type} {a b : List α} {x : α} (h : a.head? = some x) :
    (a ++ b).head? = some x := by
  cases a with
  | nil => cases h
  | cons _ _ => exact h

theorem shape_head (e : Expr) : ∀ g, ∃ t, (shape g e).head? = some (.free, t) := by
  refine Expr.rec (motive_1 := fun e => ∀ g, ∃ t, (shape g e).head? = some (.free, t))
    (motive_2 := fun _ => True) (motive_3 := fun _ => True) (motive_4 := fun _ => True)
    ?_ ?_ ?_ ?_ ?_ ?_ ?_ ?_ ?_ ?_ ?_ ?_ ?_ ?_ trivial (fun _ _ _ _ => trivial) trivial
    (fun _ _ => trivial) (fun _ _ _ _ _ => trivial) (fun _ => trivial) (fun _ _ _ => trivial)
    (fun _ _ _ _ _ => trivial) (fun _ _ _ _ _ _ _ => trivial) (fun _ _ _ _ _ _ _ => trivial) e
  case refine_6 =>
    intro a x o y hx _ g
    obtain ⟨t, ht⟩ := hx g
    exact ⟨t, by rw [shape]; exact head_append ht⟩
  case refine_7 =>
    intro a k x o y hx _ g
    obtain ⟨t, ht⟩ := hx g
    cases k <;> exact ⟨t, by rw [shape]; exact head_append ht⟩
  case refine_8 =>
    intro a k f aa l items r hf _ g
    obtain ⟨t, ht⟩ := hf g
    exact ⟨t, by rw [shape]; exact head_append ht⟩
  all_goals
    intros
    exact ⟨_, rfl⟩

theorem shape_head_free (g : Region) (e : Expr) : ∀ p ∈ (shape g e).head?, p.1 = .free := by
  obtain ⟨t, ht⟩ := shape_head e g
  intro p hp
  rw [ht] at hp
  cases hp
  rfl

/-! ## Comments -/

theorem lays_leading {ns : Bool} {m : Mode} {i : Nat} {cs : List Comment} {x : List El}
    (h : Lays ns m i (leadingDoc cs) x) : Reads st Nc [] Nc x ∧ (cs = [] → x = []) := by
  induction cs generalizing x with
  | nil => cases h; exact ⟨reads_nil _, fun _ => rfl⟩
  | cons c cs ih =>
    obtain ⟨a, y, rfl, ha, b, z, rfl, hb, hz⟩ := h
    cases ha
    refine ⟨?_, fun h => by cases h⟩
    refine Reads.pre ((reads_comment _).imp (fun _ _ => trivial) fun _ h => h) ?_
    have hb : ∃ e, b = [.nl e i] := by
      revert hb
      split <;> intro hb <;> cases hb
      · exact ⟨false, rfl⟩
      · exact ⟨true, rfl⟩
    obtain ⟨e, rfl⟩ := hb
    exact Reads.pre (reads_nl e i) ((ih hz).1.ofNc fun _ => Fr.nc)

theorem lays_trailing {ns : Bool} {m : Mode} {i n : Nat} {cs : List Comment} {x : List El}
    (h : Lays ns m i (trailingDoc n cs) x) (P : RState → Prop) : Reads st P [] P x := by
  induction cs generalizing x n with
  | nil => cases h; exact reads_nil _
  | cons c cs ih =>
    obtain ⟨a, y, rfl, ha, hy⟩ := h
    cases ha
    exact Reads.pre (reads_suffix _ _ _ _) (ih hy)

theorem lays_danglingComments {ns : Bool} {m : Mode} {i : Nat} {cs : List Comment} {x : List El}
    (h : Lays ns m i (danglingComments cs) x) : Reads st An [] An x := by
  match cs, h with
  | [], h => cases h; exact reads_nil _
  | [c], h => cases h; exact reads_comment _
  | c :: d :: cs, h =>
    obtain ⟨a, y, rfl, ha, b, z, rfl, hb, hz⟩ := h
    cases ha
    cases hb
    exact Reads.pre (reads_comment _) (Reads.pre ((reads_nl _ _).imp (fun _ h => h) any_an)
      (lays_danglingComments hz))

theorem lays_danglingHard {ns : Bool} {m : Mode} {i : Nat} {cs : List Comment} {x : List El}
    (h : Lays ns m i (danglingHard cs) x) : Reads st Nc [] Nc x := by
  unfold danglingHard at h
  split at h
  · cases h; exact reads_nil _
  · obtain ⟨a, y, rfl, ⟨b, z, rfl, hb, hz⟩, hy⟩ := h
    cases hb
    cases hy
    exact ((((reads_nl _ _).imp any_an any_an).pre (lays_danglingComments hz)).pre
      (reads_nl _ _)).imp any_an fun _ => Fr.nc

/-- Dangling comments in soft blocks: only needed where line breaks do not matter. If soft line
breaks are removed the comment could swallow what follows, so this is excluded. -/
theorem lays_danglingSoft {m : Mode} {i : Nat} {cs : List Comment} {x : List El}
    (h : Lays false m i (danglingSoft cs) x) : Reads st Nc [] Nc x := by
  unfold danglingSoft at h
  split at h
  · cases h; exact reads_nil _
  · obtain ⟨m', hm, a, y, rfl, ⟨b, z, rfl, hb, hz⟩, hy⟩ := h
    have := hm rfl rfl
    subst this
    cases hb
    cases hy
    exact ((((reads_nl _ _).imp any_an any_an).pre (lays_danglingComments hz)).pre
      (reads_nl _ _)).imp any_an fun _ => Fr.nc

end Verif.Format
