import Verif.Lemmas.LexWord
import Verif.Lemmas.FormatEmit

/-!
# Tokens that are printed next to each other
-/

namespace Verif.Format
open Verif.Syntax

/-- Not in a string. -/
def NoStr : Option Tok → Prop
  | none => True
  | some t => holds t = false

/-- `u` may come directly after the token `s`. -/
def Follows : Option Tok → Tok → Prop
  | none, _ => True
  | some t, u => holds t = true ∨ ∀ b r, u.text = b :: r → StopsAt t b

/-- Tokens that are printed next to each other stay apart; `s`: the token directly before. -/
def Glued : Option Tok → List El → Prop
  | _, [] => True
  | s, .tok u :: es => Follows s u ∧ Glued (some u) es
  | s, .suffix .. :: es => NoStr s ∧ Glued s es
  | s, .blank bs :: es => NoStr s ∧ Glued (if bs = [] then s else none) es
  | s, _ :: es => NoStr s ∧ Glued none es

/-- The token directly before the end. -/
def glueEnd : Option Tok → List El → Option Tok
  | s, [] => s
  | _, .tok u :: es => glueEnd (some u) es
  | s, .suffix .. :: es => glueEnd s es
  | s, .blank bs :: es => glueEnd (if bs = [] then s else none) es
  | _, _ :: es => glueEnd none es

theorem glued_append : ∀ (x y : List El) (s : Option Tok),
    Glued s (x ++ y) ↔ Glued s x ∧ Glued (glueEnd s x) y
  | [], y, s => by simp [Glued, glueEnd]
  | e :: x, y, s => by
    cases e <;> simp only [List.cons_append, Glued, glueEnd, glued_append x y, and_assoc]

theorem glueEnd_append : ∀ (x y : List El) (s : Option Tok),
    glueEnd s (x ++ y) = glueEnd (glueEnd s x) y
  | [], y, s => rfl
  | e :: x, y, s => by
    cases e <;> simp only [List.cons_append, glueEnd, glueEnd_append x y]

/-! ## The printer -/

structure GInv (p : PState) (s so : Option Tok) : Prop where
  started : p.started = false → so = none
  same : so = none ∨ p.space = true ∨ p.ind ≠ 0 ∨ so = s
  str : NoStr so ∨ so = s ∧ p.space = false ∧ p.ind = 0

theorem pending_glued (p : PState) {so : Option Tok} (h : NoStr so) :
    Glued so (pendingEls p) ∧
      (glueEnd so (pendingEls p) = none ∨ p.ind = 0 ∧ p.space = false ∧ glueEnd so (pendingEls p) = so) := by
  unfold pendingEls
  by_cases hi : p.ind = 0
  · rw [if_pos hi]
    cases hs : p.space
    · simp [Glued, glueEnd, hi]
    · simp [Glued, glueEnd, h]
  · rw [if_neg hi]
    have h0 : List.replicate p.ind (9 : Byte) ≠ [] := by
      intro h
      have := congrArg List.length h
      simp at this
      exact hi this
    cases hs : p.space
    · simp [Glued, glueEnd, h, h0]
    · have hn : NoStr none := trivial
      simp [Glued, glueEnd, h, h0, hn]

theorem pendingEls_none {p : PState} (hi : p.ind = 0) (hs : p.space = false) : pendingEls p = [] := by
  simp [pendingEls, hi, hs]

/-- A line break. -/
theorem printNl_glued (p : PState) (e : Bool) (i : Nat) {so : Option Tok} (h : NoStr so)
    (hs : p.started = false → so = none) :
    Glued so (printNl p e i).1 ∧ glueEnd so (printNl p e i).1 = none ∧
      (printNl p e i).2.started = false := by
  unfold printNl
  refine ⟨?_, ?_, rfl⟩
  · have hn : NoStr none := trivial
    cases p.started <;> cases e <;> cases p.emptyLine <;> simp [Glued, h, hn]
  · cases hp : p.started with
    | false =>
      rw [hs hp]
      cases e <;> cases p.emptyLine <;> simp [glueEnd]
    | true => cases e <;> cases p.emptyLine <;> simp [glueEnd]

theorem printComment_glued (p : PState) (t : List Byte) {so : Option Tok} (h : NoStr so) :
    Glued so (printText p (.comment t)).1 ∧ glueEnd so (printText p (.comment t)).1 = none := by
  rw [printText_eq]
  simp only
  obtain ⟨h1, h2⟩ := pending_glued p h
  rw [glued_append, glueEnd_append]
  refine ⟨⟨h1, ?_⟩, rfl⟩
  refine ⟨?_, trivial⟩
  rcases h2 with h2 | ⟨-, -, h2⟩
  · rw [h2]; trivial
  · rw [h2]; exact h

theorem printSuffixes_glued : ∀ (xs : List (Option Bool × Nat × List Byte)) (p : PState) (so : Option Tok),
    NoStr so → (p.started = false → so = none) →
    Glued so (printSuffixes p xs).1 ∧ NoStr (glueEnd so (printSuffixes p xs).1) ∧
      ((printSuffixes p xs).2.started = false → glueEnd so (printSuffixes p xs).1 = none)
  | [], p, so, h, hs => ⟨trivial, h, hs⟩
  | x :: xs, p, so, h, hs => by
    simp only [printSuffixes]
    have key : Glued so (printSuffix p x).1 ∧ glueEnd so (printSuffix p x).1 = none := by
      obtain ⟨l, i, t⟩ := x
      cases l with
      | none =>
        simp only [printSuffix]
        exact printComment_glued _ t h
      | some e =>
        simp only [printSuffix]
        obtain ⟨h1, h2, -⟩ := printNl_glued p e i h hs
        rw [glued_append, glueEnd_append, h2]
        obtain ⟨h3, h4⟩ := printComment_glued (printNl p e i).2 t (so := none) trivial
        exact ⟨⟨h1, h3⟩, h4⟩
    have ih := printSuffixes_glued xs (printSuffix p x).2 none trivial (fun _ => rfl)
    rw [glued_append, glueEnd_append, key.2]
    exact ⟨⟨key.1, ih.1⟩, ih.2.1, ih.2.2⟩

theorem GInv.noStr {p : PState} {s so : Option Tok} (h : GInv p s so) (hs : NoStr s) : NoStr so := by
  rcases h.str with h | ⟨h, -, -⟩
  · exact h
  · rw [h]; exact hs

/-- The printer keeps tokens apart. -/
theorem glued_printEls : ∀ (els : List El) (p : PState) (s so : Option Tok), GInv p s so →
    Glued s els → NoStr (glueEnd s els) →
    Glued so (printEls p els) ∧ NoStr (glueEnd so (printEls p els))
  | [], p, s, so, hi, hg, hn => by
    obtain ⟨h1, h2, -⟩ := printSuffixes_glued p.sfx { p with sfx := [] } so (hi.noStr hn) hi.started
    exact ⟨h1, h2⟩
  | .tok u :: els, p, s, so, hi, hg, hn => by
    obtain ⟨h1, h2⟩ := hg
    rw [printEls]
    simp only [printEl]
    rw [printText_eq]
    simp only
    have ih := glued_printEls els { p with started := true, space := false, ind := 0, emptyLine := false }
      (some u) (some u) ⟨(fun h => by cases h), .inr (.inr (.inr rfl)), .inr ⟨rfl, rfl, rfl⟩⟩ h2 hn
    rw [List.append_assoc, glued_append, glueEnd_append]
    simp only [List.singleton_append, Glued, glueEnd]
    suffices h : Glued so (pendingEls p) ∧ Follows (glueEnd so (pendingEls p)) u from ⟨⟨h.1, h.2, ih.1⟩, ih.2⟩
    rcases hi.str with hs | ⟨rfl, hs, hd⟩
    · obtain ⟨g1, g2⟩ := pending_glued p hs
      refine ⟨g1, ?_⟩
      rcases g2 with g2 | ⟨k1, k2, k3⟩
      · rw [g2]; trivial
      · rw [k3]
        rcases hi.same with h | h | h | h
        · rw [h]; trivial
        · rw [k2] at h; cases h
        · exact absurd k1 h
        · rw [h]; exact h1
    · rw [pendingEls_none hd hs]
      exact ⟨trivial, h1⟩
  | .suffix l i t :: els, p, s, so, hi, hg, hn => by
    obtain ⟨h1, h2⟩ := hg
    exact glued_printEls els { p with sfx := p.sfx ++ [(l, i, t)] } s so ⟨hi.started, hi.same, hi.str⟩ h2 hn
  | .space :: els, p, s, so, hi, hg, hn => by
    obtain ⟨h1, h2⟩ := hg
    refine glued_printEls els (printSpace p) none so ⟨hi.started, ?_, .inl (hi.noStr h1)⟩ h2 hn
    cases hst : p.started with
    | false => exact .inl (hi.started hst)
    | true => exact .inr (.inl (by simp [printSpace, hst]))
  | .nl e i :: els, p, s, so, hi, hg, hn => by
    obtain ⟨h1, h2⟩ := hg
    rw [printEls]
    simp only [printEl, flush]
    obtain ⟨g1, g2, g3⟩ := printSuffixes_glued p.sfx { p with sfx := [] } so (hi.noStr h1) hi.started
    obtain ⟨k1, k2, k3⟩ := printNl_glued (printSuffixes { p with sfx := [] } p.sfx).2 e i g2 g3
    have ih := glued_printEls els (printNl (printSuffixes { p with sfx := [] } p.sfx).2 e i).2 none none
      ⟨(fun _ => rfl), .inl rfl, .inl trivial⟩ h2 hn
    simp only [glued_append, glueEnd_append, k2]
    exact ⟨⟨⟨g1, k1⟩, ih.1⟩, ih.2⟩
  | .rnl :: els, p, s, so, hi, hg, hn => by
    obtain ⟨h1, h2⟩ := hg
    rw [printEls]
    simp only [printEl]
    rw [printText_eq]
    simp only
    obtain ⟨g1, g2⟩ := pending_glued p (hi.noStr h1)
    have ih := fun p' => glued_printEls els p' none none ⟨(fun _ => rfl), .inl rfl, .inl trivial⟩ h2 hn
    rw [List.append_assoc, glued_append, glueEnd_append]
    simp only [List.singleton_append, Glued, glueEnd]
    refine ⟨⟨g1, ?_, (ih _).1⟩, (ih _).2⟩
    rcases g2 with g2 | ⟨-, -, g2⟩
    · rw [g2]; trivial
    · rw [g2]; exact hi.noStr h1
  | .comment t :: els, p, s, so, hi, hg, hn => by
    obtain ⟨h1, h2⟩ := hg
    rw [printEls]
    simp only [printEl]
    have ih := glued_printEls els (printText p (.comment t)).2 none none
      ⟨(fun _ => rfl), .inl rfl, .inl trivial⟩ h2 hn
    obtain ⟨g1, g2⟩ := printComment_glued p t (hi.noStr h1)
    rw [glued_append, glueEnd_append, g2]
    exact ⟨⟨g1, ih.1⟩, ih.2⟩
  | .blank bs :: els, p, s, so, hi, hg, hn => by
    obtain ⟨h1, h2⟩ := hg
    rw [printEls]
    simp only [printEl]
    rw [printText_eq]
    simp only
    obtain ⟨g1, g2⟩ := pending_glued p (hi.noStr h1)
    have g3 : NoStr (glueEnd so (pendingEls p)) := by
      rcases g2 with g2 | ⟨-, -, g2⟩
      · rw [g2]; trivial
      · rw [g2]; exact hi.noStr h1
    rw [List.append_assoc, glued_append, glueEnd_append]
    simp only [List.singleton_append, Glued, glueEnd]
    have ih := glued_printEls els { p with started := true, space := false, ind := 0, emptyLine := false }
      (if bs = [] then s else none) (if bs = [] then glueEnd so (pendingEls p) else none)
      ⟨(fun h => by cases h), ?_, .inl ?_⟩ h2 hn
    · exact ⟨⟨g1, g3, ih.1⟩, ih.2⟩
    · split
      · rcases g2 with g2 | ⟨k1, k2, k3⟩
        · exact .inl g2
        · rw [k3]
          rcases hi.same with h | h | h | h
          · exact .inl h
          · rw [k2] at h; cases h
          · exact absurd k1 h
          · exact .inr (.inr (.inr h))
      · exact .inl rfl
    · split
      · exact g3
      · trivial

theorem glued_emit {els : List El} (h : Glued none els) (hn : NoStr (glueEnd none els)) :
    Glued none (emit els) ∧ NoStr (glueEnd none (emit els)) :=
  glued_printEls els {} none none ⟨(fun _ => rfl), .inl rfl, .inl trivial⟩ h hn

/-! ## Texts of comments and blanks -/

def CommentText (t : List Byte) : Prop := ∃ r, t = 35 :: r ∧ (10 : Byte) ∉ r

/-- As `Trivial`, before printing. -/
def Plain : El → Prop
  | .suffix _ _ t | .comment t => CommentText t
  | .blank bs => ∀ b ∈ bs, isBlank b = true ∨ b = 59
  | _ => True

theorem pending_trivial (p : PState) : ∀ e ∈ pendingEls p, Trivial e := by
  intro e he
  unfold pendingEls at he
  rcases List.mem_append.1 he with he | he
  · split at he
    · cases he
    · cases List.mem_singleton.1 he
      intro b hb
      have := List.eq_of_mem_replicate hb
      subst this
      exact .inl (by decide)
  · split at he
    · cases List.mem_singleton.1 he
      intro b hb
      cases List.mem_singleton.1 hb
      exact .inl (by decide)
    · cases he

theorem printText_trivial (p : PState) {e : El} (h : Trivial e) : ∀ x ∈ (printText p e).1, Trivial x := by
  rw [printText_eq]
  intro x hx
  rcases List.mem_append.1 hx with hx | hx
  · exact pending_trivial p x hx
  · cases List.mem_singleton.1 hx
    exact h

theorem printNl_trivial (p : PState) (e : Bool) (i : Nat) : ∀ x ∈ (printNl p e i).1, Trivial x := by
  unfold printNl
  intro x hx
  have hx : x = .rnl := by
    rcases List.mem_append.1 hx with hx | hx
    all_goals
      split at hx
      · exact List.mem_singleton.1 hx
      · cases hx
  subst hx
  trivial

theorem printSuffixes_trivial : ∀ (xs : List (Option Bool × Nat × List Byte)) (p : PState),
    (∀ x ∈ xs, CommentText x.2.2) → ∀ e ∈ (printSuffixes p xs).1, Trivial e
  | [], _, _ => by intro e he; cases he
  | x :: xs, p, h => by
    simp only [printSuffixes]
    intro e he
    rcases List.mem_append.1 he with he | he
    · obtain ⟨l, i, t⟩ := x
      have ht : CommentText t := h _ (List.mem_cons_self ..)
      cases l with
      | none => exact printText_trivial _ (e := .comment t) ht e he
      | some l =>
        simp only [printSuffix] at he
        rcases List.mem_append.1 he with he | he
        · exact printNl_trivial _ _ _ e he
        · exact printText_trivial _ (e := .comment t) ht e he
    · exact printSuffixes_trivial xs _ (fun y hy => h y (List.mem_cons_of_mem _ hy)) e he

theorem printSuffixes_sfx : ∀ (xs : List (Option Bool × Nat × List Byte)) (p : PState),
    (printSuffixes p xs).2.sfx = p.sfx
  | [], p => rfl
  | x :: xs, p => by
    simp only [printSuffixes]
    rw [printSuffixes_sfx xs]
    obtain ⟨l, i, t⟩ := x
    cases l <;> rfl

theorem trivial_printEls : ∀ (els : List El) (p : PState), (∀ e ∈ els, Plain e) →
    (∀ x ∈ p.sfx, CommentText x.2.2) → ∀ e ∈ printEls p els, Trivial e
  | [], p, _, hp => by
    intro e he
    exact printSuffixes_trivial _ _ hp e he
  | x :: els, p, h, hp => by
    have hx := h x (List.mem_cons_self ..)
    have ih := fun p' hp' => trivial_printEls els p' (fun e he => h e (List.mem_cons_of_mem _ he)) hp'
    intro e he
    rw [printEls] at he
    cases x with
    | suffix l i t =>
      simp only [printEl, List.nil_append] at he
      refine ih _ ?_ e he
      intro y hy
      rcases List.mem_append.1 hy with hy | hy
      · exact hp y hy
      · cases List.mem_singleton.1 hy
        exact hx
    | space =>
      simp only [printEl, List.nil_append] at he
      exact ih _ (by exact hp) e he
    | nl b i =>
      simp only [printEl, flush] at he
      rcases List.mem_append.1 he with he | he
      · rcases List.mem_append.1 he with he | he
        · exact printSuffixes_trivial _ _ hp e he
        · exact printNl_trivial _ _ _ e he
      · refine ih _ ?_ e he
        intro y hy
        have hy : y ∈ (printSuffixes { p with sfx := [] } p.sfx).2.sfx := hy
        rw [printSuffixes_sfx] at hy
        cases hy
    | rnl =>
      simp only [printEl] at he
      rcases List.mem_append.1 he with he | he
      · exact printText_trivial p (e := .rnl) trivial e he
      · exact ih _ (by exact hp) e he
    | tok t =>
      simp only [printEl] at he
      rcases List.mem_append.1 he with he | he
      · exact printText_trivial p (e := .tok t) trivial e he
      · exact ih _ (by exact hp) e he
    | comment t =>
      simp only [printEl] at he
      rcases List.mem_append.1 he with he | he
      · exact printText_trivial p (e := .comment t) hx e he
      · exact ih _ (by exact hp) e he
    | blank t =>
      simp only [printEl] at he
      rcases List.mem_append.1 he with he | he
      · exact printText_trivial p (e := .blank t) hx e he
      · exact ih _ (by exact hp) e he

theorem trivial_emit {els : List El} (h : ∀ e ∈ els, Plain e) : ∀ e ∈ emit els, Trivial e :=
  trivial_printEls els {} h (fun x hx => by cases hx)

/-! ## Tokens in order -/

/-- The tokens can be lexed one after the other; `st`: open tokens. -/
def Tracks : List Tok → List Tok → Prop
  | st, [] => openString st = none
  | st, t :: ts => Fine st t ∧ (t.kind = .rBrack → openTwo st = false) ∧
      (t.kind = .stringContent → ∃ u us, ts = u :: us ∧ u.kind = .stringClose) ∧
      Tracks (openAfter st t) ts

/-- Is a string open after the token? -/
def isHeld : Option Tok → Bool
  | none => false
  | some t => holds t

theorem noStr_held {s : Option Tok} (h : NoStr s) : isHeld s = false := by
  cases s with
  | none => rfl
  | some t => exact h

theorem unbroken_glued : ∀ (els : List El) (s : Option Tok), Glued s els → NoStr (glueEnd s els) →
    Unbroken (isHeld s) els
  | [], s, _, h => noStr_held h
  | .tok u :: els, s, hg, hn => unbroken_glued els (some u) hg.2 hn
  | .suffix l i t :: els, s, hg, hn =>
    ⟨noStr_held hg.1, (noStr_held hg.1) ▸ unbroken_glued els s hg.2 hn⟩
  | .blank bs :: els, s, hg, hn => by
    refine ⟨noStr_held hg.1, ?_⟩
    have := unbroken_glued els _ hg.2 hn
    split at this
    · rw [noStr_held hg.1] at this
      exact this
    · exact this
  | .space :: els, s, hg, hn => ⟨noStr_held hg.1, unbroken_glued els none hg.2 hn⟩
  | .nl .. :: els, s, hg, hn => ⟨noStr_held hg.1, unbroken_glued els none hg.2 hn⟩
  | .comment .. :: els, s, hg, hn => ⟨noStr_held hg.1, unbroken_glued els none hg.2 hn⟩
  | .rnl :: els, s, hg, hn => ⟨noStr_held hg.1, unbroken_glued els none hg.2 hn⟩

/-- What follows a token directly. -/
theorem glued_head {t : Tok} (ht : holds t = false) : ∀ (els : List El), Glued (some t) els →
    (∀ e ∈ els, Trivial e) → (∀ u ∈ printedToks els, u.text ≠ []) →
    ∀ b ∈ (render els).head?, white b = true ∨ StopsAt t b
  | [], _, _, _ => by intro b hb; cases hb
  | .tok u :: els, hg, _, hn => by
    intro b hb
    have hu := hn u (List.mem_cons_self ..)
    cases htx : u.text with
    | nil => exact absurd htx hu
    | cons c r =>
      simp only [render, htx, List.cons_append, List.head?_cons, Option.mem_def, Option.some.injEq] at hb
      subst hb
      rcases hg.1 with h | h
      · rw [ht] at h; cases h
      · exact .inr (h _ _ htx)
  | .comment x :: els, _, hp, _ => by
    intro b hb
    obtain ⟨r, rfl, -⟩ := hp _ (List.mem_cons_self ..)
    simp only [render, List.cons_append, List.head?_cons, Option.mem_def, Option.some.injEq] at hb
    subst hb
    exact .inl (by decide)
  | .rnl :: els, _, _, _ => by
    intro b hb
    simp only [render, List.head?_cons, Option.mem_def, Option.some.injEq] at hb
    subst hb
    exact .inl (by decide)
  | .blank [] :: els, hg, hp, hn => by
    have := glued_head ht els hg.2 (fun e he => hp e (List.mem_cons_of_mem _ he)) hn
    exact this
  | .blank (c :: bs) :: els, hg, hp, hn => by
    intro b hb
    simp only [render, List.cons_append, List.head?_cons, Option.mem_def, Option.some.injEq] at hb
    subst hb
    refine .inl ?_
    rcases hp _ (List.mem_cons_self ..) c (List.mem_cons_self ..) with h | h
    · unfold isBlank at h
      simp only [Bool.or_eq_true, beq_iff_eq] at h
      rcases h with (((rfl | rfl) | rfl) | rfl) | rfl <;> decide
    · subst h
      decide
  | .suffix .. :: els, _, hp, _ => (hp _ (List.mem_cons_self ..)).elim
  | .space :: els, _, hp, _ => (hp _ (List.mem_cons_self ..)).elim
  | .nl .. :: els, _, hp, _ => (hp _ (List.mem_cons_self ..)).elim

theorem tracks_ne : ∀ (ts : List Tok) (st : List Tok), Stack st → Tracks st ts → ∀ t ∈ ts, t.text ≠ []
  | [], _, _, _ => by intro t ht; cases ht
  | u :: ts, st, hst, h => by
    intro t ht
    rcases List.mem_cons.1 ht with rfl | ht
    · exact h.1.ne hst.1
    · exact tracks_ne ts _ (stack_after hst h.1).1 h.2.2.2 t ht

theorem openString_some {st : List Tok} {q : List Byte} (h : openString st = some q) :
    ∃ u r, st = u :: r ∧ u.kind = .stringOpen ∧ u.text = q := by
  cases st with
  | nil => cases h
  | cons u r =>
    rw [openString_cons] at h
    by_cases hu : u.kind = .stringOpen
    · rw [if_pos hu] at h
      exact ⟨u, r, rfl, hu, Option.some.inj h⟩
    · rw [if_neg hu] at h
      cases h

/-- A token that opens a string is complete. -/
theorem Word.quote {t : Tok} (h : Word t) (hk : t.kind = .stringOpen) {s : Scan}
    (hs : finish false t.text = some s) : s = .done .stringOpen := by
  obtain ⟨s', h1, h2⟩ := h
  rw [hs] at h1
  cases h1
  rw [hk] at h2
  cases s with
  | done k =>
    simp only [Scan.kind, Option.some.injEq] at h2
    rw [h2]
  | symbol x =>
    simp only [Scan.kind, Option.map_eq_some_iff] at h2
    obtain ⟨p, hp, hk'⟩ := h2
    have hm := List.mem_of_find?_eq_some hp
    have : ∀ p ∈ symbols, p.2 ≠ .stringOpen := by decide
    exact absurd hk' (this p hm)
  | name | rawName | dot =>
    exfalso
    simp only [Scan.kind, Option.some.injEq] at h2
    unfold wordKind at h2
    split at h2
    · rename_i p hp
      have hm := List.mem_of_find?_eq_some hp
      have : ∀ p ∈ reserved, p.2 ≠ .stringOpen := by decide
      exact this p hm h2
    · split at h2
      · split at h2 <;> cases h2
      · cases h2
  | _ =>
    simp only [Scan.kind] at h2
    cases h2

/-- Printed elements are lexed as what they are. -/
theorem tidy_glued : ∀ (els : List El) (st : List Tok) (s : Option Tok), Stack st → Glued s els →
    Tracks st (printedToks els) → (∀ e ∈ els, Trivial e) → Parted st els
  | [], _, _, _, _, _, _ => trivial
  | .tok t :: els, st, s, hst, hg, ht, hp => by
    obtain ⟨h1, h2, h3, h4⟩ := ht
    have hp' : ∀ e ∈ els, Trivial e := fun e he => hp e (List.mem_cons_of_mem _ he)
    have hst' := stack_after hst h1
    refine ⟨h1, ?_, tidy_glued els _ _ hst'.1 hg.2 h4 hp'⟩
    have hne := tracks_ne _ _ hst'.1 h4
    have hgl := hg.2
    unfold Stops
    cases hq : openString st with
    | some q =>
      intro hk
      obtain ⟨u, us, hu, huk⟩ := h3 hk
      obtain ⟨v, r, rfl, hv, hvq⟩ := openString_some hq
      have ho : openAfter (v :: r) t = v :: r := by
        unfold openAfter
        rw [hk]
        rfl
      have hht : holds t = true := by unfold holds; rw [hk]; rfl
      rw [hu, ho] at h4
      have huf : Fine (v :: r) u := h4.1
      unfold Fine at huf
      rw [hq] at huf
      have hut : u.text = closeText q := by
        rcases huf with ⟨_, h⟩ | ⟨h, _⟩
        · exact h
        · rw [huk] at h; cases h
      cases els with
      | nil => cases hu
      | cons e es =>
        cases e with
        | tok w =>
          have hw : w = u := by
            simp only [printedToks, List.cons.injEq] at hu
            exact hu.1
          exact ⟨render es, by rw [render, hw, hut]⟩
        | suffix l i x | space | nl b i | comment x | blank x | rnl =>
          have h0 : holds t = false := hgl.1
          rw [hht] at h0
          cases h0
    | none =>
      intro s' hs'
      have hkc : t.kind ≠ .stringContent ∧ t.kind ≠ .stringClose := by
        have h1' := h1
        unfold Fine at h1'
        rw [hq] at h1'
        obtain ⟨s'', h5, h6⟩ := h1'
        exact kind_code h5 h6
      rcases h1.lexeme hq with hw | ⟨hk, htx⟩
      · have hf : finish false t.text = some s' := by
          by_cases hk : t.kind = .rBrack
          · rw [h2 hk] at hs'
            exact hs'
          · rw [finish_two] at hs'
            · exact hs'
            · rintro b r hb rfl
              exact hk (hw.bracket hb)
        by_cases hh : holds t = true
        · have hk : t.kind = .stringOpen := by
            unfold holds at hh
            simp only [Bool.or_eq_true, beq_iff_eq] at hh
            exact hh.resolve_right hkc.1
          intro b hb
          rw [hw.quote hk hf]
          rfl
        · have hh : holds t = false := by simpa using hh
          intro b hb
          rcases glued_head hh els hgl hp' hne b hb with h | h | h
          · exact hw.white h hf
          · unfold exempt at h
            simp only [Bool.or_eq_true, beq_iff_eq] at h
            obtain ⟨s'', hf', hc⟩ := hw.cases
            rw [hf] at hf'
            cases hf'
            rcases h with (h | h) | h
            · have htx : t.text = [93] := by
                rcases hc with ⟨-, hc⟩ | ⟨-, -, hc, -⟩
                · rw [h] at hc
                  have : ∀ p ∈ symbols, p.2 ≠ .rBrack := by decide
                  exact absurd rfl (this _ hc)
                · exact hc h
              rw [htx] at hf
              have h0 : finish false [93] = some (.done .rBrack) := by decide
              rw [h0] at hf
              cases hf
              rfl
            · have h0 : s'.kind t.text = some t.kind := by
                obtain ⟨s3, h5, h6⟩ := hw
                rw [hf] at h5
                cases h5
                exact h6
              rw [h] at h0
              cases s' with
              | done k => rfl
              | symbol x =>
                simp only [Scan.kind, Option.map_eq_some_iff] at h0
                obtain ⟨p, hp, hk'⟩ := h0
                have hm := List.mem_of_find?_eq_some hp
                have : ∀ p ∈ symbols, p.2 ≠ .rBrack2 := by decide
                exact absurd hk' (this p hm)
              | name | rawName | dot =>
                exfalso
                simp only [Scan.kind, Option.some.injEq] at h0
                unfold wordKind at h0
                split at h0
                · rename_i p hp
                  have hm := List.mem_of_find?_eq_some hp
                  have : ∀ p ∈ reserved, p.2 ≠ .rBrack2 := by decide
                  exact this p hm h0
                · split at h0
                  · split at h0 <;> cases h0
                  · cases h0
              | _ =>
                simp only [Scan.kind] at h0
                cases h0
            · exact absurd h hkc.2
          · exact h s' hf
      · intro b hb
        rw [htx] at hs'
        cases h0 : openTwo st with
        | false =>
          rw [h0] at hs'
          have h0 : finish false [93, 93] = none := by decide
          rw [h0] at hs'
          cases hs'
        | true =>
          rw [h0] at hs'
          have h0 : finish true [93, 93] = some (.done .rBrack2) := by decide
          rw [h0] at hs'
          cases hs'
          rfl
  | .comment x :: els, st, s, hst, hg, ht, hp =>
    tidy_glued els st none hst hg.2 ht (fun e he => hp e (List.mem_cons_of_mem _ he))
  | .rnl :: els, st, s, hst, hg, ht, hp =>
    tidy_glued els st none hst hg.2 ht (fun e he => hp e (List.mem_cons_of_mem _ he))
  | .blank x :: els, st, s, hst, hg, ht, hp =>
    tidy_glued els st _ hst hg.2 ht (fun e he => hp e (List.mem_cons_of_mem _ he))
  | .suffix .. :: els, _, _, _, _, _, hp => (hp _ (List.mem_cons_self ..)).elim
  | .space :: els, _, _, _, _, _, hp => (hp _ (List.mem_cons_self ..)).elim
  | .nl .. :: els, _, _, _, _, _, hp => (hp _ (List.mem_cons_self ..)).elim

/-- No token is in a comment. -/
theorem hushed_seen : ∀ (els : List El) (s : RState),
    (∀ e ∈ els, Trivial e) → (seen s els).length = (printedToks els).length → Hushed (decide (s = .comment)) els
  | [], _, _, _ => trivial
  | .tok t :: els, s, hp, h => by
    have hp' : ∀ e ∈ els, Trivial e := fun e he => hp e (List.mem_cons_of_mem _ he)
    have hle : ∀ (els : List El) (s : RState), (seen s els).length ≤ (printedToks els).length := by
      intro els
      induction els with
      | nil => intro s; exact Nat.le_refl _
      | cons e els ih =>
        intro s
        cases e with
        | tok t =>
          simp only [seen, printedToks, List.length_append, List.length_cons]
          have := ih (s.after (.tok t))
          split <;> simp <;> omega
        | _ =>
          simp only [seen, printedToks, List.nil_append]
          exact ih _
    by_cases hs : s = .comment
    · simp only [seen, printedToks, if_pos hs, List.nil_append, List.length_cons] at h
      have := hle els (s.after (.tok t))
      omega
    · refine ⟨by simp [hs], ?_⟩
      simp only [seen, printedToks, if_neg hs, List.length_append, List.length_cons, List.length_nil] at h
      have := hushed_seen els (s.after (.tok t)) hp' (by omega)
      have h0 : s.after (.tok t) = .inside := by simp [RState.after, hs]
      rw [h0] at this
      exact this
  | .comment x :: els, s, hp, h => by
    have hp' : ∀ e ∈ els, Trivial e := fun e he => hp e (List.mem_cons_of_mem _ he)
    have := hushed_seen els (s.after (.comment x)) hp' (by simpa [seen, printedToks] using h)
    have h0 : Hushed _ els := this
    simp only [RState.after, decide_true] at h0
    exact h0
  | .rnl :: els, s, hp, h => by
    have hp' : ∀ e ∈ els, Trivial e := fun e he => hp e (List.mem_cons_of_mem _ he)
    have := hushed_seen els (s.after .rnl) hp' (by simpa [seen, printedToks] using h)
    exact this
  | .blank x :: els, s, hp, h => by
    have hp' : ∀ e ∈ els, Trivial e := fun e he => hp e (List.mem_cons_of_mem _ he)
    have := hushed_seen els (s.after (.blank x)) hp' (by simpa [seen, printedToks] using h)
    have h0 : decide (s.after (.blank x) = .comment) = decide (s = .comment) := by
      simp only [RState.after]
      split
      · rename_i h
        rw [h.1]
        decide
      · rfl
    rw [h0] at this
    exact this
  | .suffix .. :: els, _, hp, _ => (hp _ (List.mem_cons_self ..)).elim
  | .space :: els, _, hp, _ => (hp _ (List.mem_cons_self ..)).elim
  | .nl .. :: els, _, hp, _ => (hp _ (List.mem_cons_self ..)).elim

/-- Printed tokens that are apart, in order, and not in comments are lexed as such. -/
theorem lexText_glued {els : List El} (hg : Glued none els) (hn : NoStr (glueEnd none els))
    (hp : ∀ e ∈ els, Trivial e) (ht : Tracks [] (printedToks els))
    (hs : (seen .fresh els).map Prod.snd = printedToks els) :
    lexText (render els) = some (seen .fresh els) := by
  have hh := hushed_seen els .fresh hp (by rw [← hs, List.length_map])
  have h := lex_tidy els false [] true ((render els).length + 1) (tidy_glued els [] none Stack.nil hg ht hp)
    hp hh (unbroken_glued els none hg hn) Stack.nil (Nat.lt_succ_self _) (fun h => by cases h)
  exact h

end Verif.Format
