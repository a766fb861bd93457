import Verif.Spec.RangeFormat

/-!
# Lemmas on the choice of logical lines
-/

namespace Verif.RangeFormat

open Syntax

/-! ## Lengths -/

theorem tokensList_append' (a b : List Tree) :
    Tree.tokensList (a ++ b) = Tree.tokensList a ++ Tree.tokensList b := by
  induction a with
  | nil => simp [Tree.tokensList]
  | cons t ts ih => simp [Tree.tokensList, ih]

@[simp] theorem lens_nil : lens [] = 0 := rfl

theorem lens_cons (t : Tree) (ts : List Tree) : lens (t :: ts) = len t + lens ts := by
  simp [lens, len, Tree.full, Tree.tokensList]

theorem lens_append (a b : List Tree) : lens (a ++ b) = lens a + lens b := by
  simp [lens, tokensList_append']

theorem len_node (k : Kind) (cs : List Tree) : len (.node k cs) = lens cs := by
  simp [len, lens, Tree.full, Tree.tokens]

theorem tokens_node (k : Kind) (l : List Tree) (c : Tree) (r : List Tree) :
    (Tree.node k (l ++ c :: r)).tokens = Tree.tokensList l ++ c.tokens ++ Tree.tokensList r := by
  simp [Tree.tokens, tokensList_append', Tree.tokensList]

theorem lens_of_tokens {ts : List Tree} (h : Tree.tokensList ts = []) : lens ts = 0 := by
  simp [lens, h]

theorem token_full_length (t : Token) : t.full.length =
    (piecesText t.leading).length + t.text.length + (piecesText t.trailing).length := by
  simp [Token.full, Nat.add_assoc]

/-- The first token of a list of tokens fits. -/
theorem lead_le (ts : List Token) : (ts.head?.map fun k => (piecesText k.leading).length).getD 0 ≤
    (ts.map Token.full).flatten.length := by
  cases ts with
  | nil => simp
  | cons t ts => simp [Token.full]

theorem trail_le (ts : List Token) : (ts.getLast?.map fun k => (piecesText k.trailing).length).getD 0 ≤
    (ts.map Token.full).flatten.length := by
  rcases List.eq_nil_or_concat ts with rfl | ⟨a, t, rfl⟩
  · simp
  · simp [Token.full]; omega

theorem lead_le_len (t : Tree) : lead t ≤ len t := lead_le t.tokens
theorem trail_le_len (t : Tree) : trail t ≤ len t := trail_le t.tokens

/-- The text of a node lies in the text of its parent. -/
theorem trimmed_child (k : Kind) (l : List Tree) (c : Tree) (r : List Tree) (hc : c.tokens ≠ []) :
    lead (.node k (l ++ c :: r)) ≤ lens l + lead c ∧
    lens l + len c - trail c ≤ len (.node k (l ++ c :: r)) - trail (.node k (l ++ c :: r)) := by
  obtain ⟨h, tl, hh⟩ := List.exists_cons_of_ne_nil hc
  rcases List.eq_nil_or_concat c.tokens with h0 | ⟨ini, la, hla⟩
  · exact absurd h0 hc
  constructor
  · simp only [lead, tokens_node, hh]
    cases hl : Tree.tokensList l with
    | nil => simp
    | cons t ts => 
      have := lead_le (Tree.tokensList l)
      simp only [hl] at this
      simp only [lens, hl]
      simp at this ⊢
      omega
  · have hlen : len (.node k (l ++ c :: r)) = lens l + len c + lens r := by
      rw [len_node, lens_append, lens_cons]; omega
    rw [hlen]
    have htc := trail_le_len c
    rcases List.eq_nil_or_concat (Tree.tokensList r) with hr | ⟨ini', la', hr⟩
    · have : trail (.node k (l ++ c :: r)) = trail c := by
        simp [trail, tokens_node, hr, hla]
      rw [this]; omega
    · have h1 : trail (.node k (l ++ c :: r)) ≤ lens r := by
        have := trail_le (Tree.tokensList r)
        simp only [hr] at this
        simp only [trail, tokens_node, hr, lens]
        simpa using this
      omega

/-! ## Containment -/

theorem inFull_child {x s : Nat} {k : Kind} {l r : List Tree} {c : Tree}
    (h : inFull x (s + lens l) c = true) : inFull x s (.node k (l ++ c :: r)) = true := by
  simp only [inFull, Bool.and_eq_true, decide_eq_true_eq, len_node, lens_append, lens_cons] at h ⊢
  omega

theorem inTrimmed_child {x s : Nat} {k : Kind} {l r : List Tree} {c : Tree} (hc : c.tokens ≠ [])
    (h : inTrimmed x (s + lens l) c = true) : inTrimmed x s (.node k (l ++ c :: r)) = true := by
  obtain ⟨h1, h2⟩ := trimmed_child k l c r hc
  have := trail_le_len c
  have := trail_le_len (.node k (l ++ c :: r))
  simp only [inTrimmed, Bool.and_eq_true, decide_eq_true_eq] at h ⊢
  omega

/-! ## Common prefixes -/

/-- Each path is a proper prefix of all later ones. -/
def Nested (A : List Path) : Prop := A.Pairwise fun a b => a <+: b ∧ a ≠ b

theorem prefix_antisymm {a b : Path} (h1 : a <+: b) (h2 : b <+: a) : a = b :=
  h1.eq_of_length (Nat.le_antisymm h1.length_le h2.length_le)

theorem commonList_cons (a : Path) (A B : List Path) :
    commonList (a :: A) (a :: B) = some ((commonList A B).getD a) := by
  simp only [commonList, List.zip_cons_cons, List.takeWhile_cons, beq_self_eq_true, if_true,
    List.map_cons, List.getLast?_cons]

theorem mem_takeWhile_imp {α : Type} {p : α → Bool} {l : List α} {a : α} (h : a ∈ l.takeWhile p) :
    p a = true := by
  induction l with
  | nil => simp at h
  | cons b l ih =>
    rw [List.takeWhile_cons] at h
    split at h
    · next hb =>
      rcases List.mem_cons.mp h with rfl | h
      · exact hb
      · exact ih h
    · simp at h

theorem commonList_some {A B : List Path} {p : Path} (h : commonList A B = some p) :
    p ∈ A ∧ p ∈ B := by
  have h := List.mem_of_getLast? h
  simp only [List.mem_map] at h
  obtain ⟨⟨a, b⟩, h', rfl⟩ := h
  have h1 : a = b := by simpa using mem_takeWhile_imp h'
  subst h1
  have h2 := (List.takeWhile_sublist _).subset h'
  exact ⟨(List.of_mem_zip h2).1, (List.of_mem_zip h2).2⟩

theorem commonList_deepest {A B : List Path} (hA : Nested A) (hB : Nested B)
    (hab : ∀ q ∈ A, q ∈ B → ∀ r, r <+: q → (r ∈ A ↔ r ∈ B)) :
    ∀ q ∈ A, q ∈ B → ∃ p, commonList A B = some p ∧ q <+: p := by
  induction A generalizing B with
  | nil => simp
  | cons a A ih =>
    intro q hqa hqb
    cases B with
    | nil => simp at hqb
    | cons b B =>
      rw [Nested, List.pairwise_cons] at hA hB
      have haq : a <+: q := by
        rcases List.mem_cons.mp hqa with rfl | h
        · exact List.prefix_rfl
        · exact (hA.1 q h).1
      have hbq : b <+: q := by
        rcases List.mem_cons.mp hqb with rfl | h
        · exact List.prefix_rfl
        · exact (hB.1 q h).1
      have hba : b <+: a := by
        rcases List.mem_cons.mp ((hab q hqa hqb a haq).mp (by simp)) with rfl | h
        · exact List.prefix_rfl
        · exact (hB.1 a h).1
      have hab' : a <+: b := by
        rcases List.mem_cons.mp ((hab q hqa hqb b hbq).mpr (by simp)) with rfl | h
        · exact List.prefix_rfl
        · exact (hA.1 b h).1
      obtain rfl := prefix_antisymm hab' hba
      rw [commonList_cons]
      have htail : ∀ q ∈ A, q ∈ B → ∀ r, r <+: q → (r ∈ A ↔ r ∈ B) := by
        intro q h1 h2 r hr
        have := hab q (by simp [h1]) (by simp [h2]) r hr
        constructor
        · intro h
          rcases List.mem_cons.mp (this.mp (by simp [h])) with rfl | h'
          · exact absurd rfl (hA.1 _ h).2
          · exact h'
        · intro h
          rcases List.mem_cons.mp (this.mpr (by simp [h])) with rfl | h'
          · exact absurd rfl (hB.1 _ h).2
          · exact h'
      rcases List.mem_cons.mp hqa with rfl | hqa'
      · cases hc : commonList A B with
        | none => exact ⟨q, rfl, List.prefix_rfl⟩
        | some p => exact ⟨p, rfl, (hA.1 p (commonList_some hc).1).1⟩
      · rcases List.mem_cons.mp hqb with rfl | hqb
        · exact absurd rfl (hA.1 _ hqa').2
        · obtain ⟨p, h1, h2⟩ := ih hA.2 hB.2 htail q hqa' hqb
          exact ⟨p, by rw [h1]; rfl, h2⟩

/-! ## The lists found -/

/-- There is an expression list at path `q` below the children `cs` at position `s` with a child
that contains the offset. -/
def Found (contained : Nat → Tree → Bool) (k : Kind) (cs : List Tree) (s : Nat) (q : Path) : Prop :=
  ∃ s' ds, Occ (.node k cs) s q s' (.node .rExpressionList ds) ∧
    ∃ l kd es r, ds = l ++ .node kd es :: r ∧ contained (s' + lens l) (.node kd es) = true

theorem Tree.induct {P : Tree → Prop} (h1 : ∀ t, P (.token t))
    (h2 : ∀ k cs, (∀ c ∈ cs, P c) → P (.node k cs)) : ∀ t, P t := fun t =>
  Tree.rec (motive_1 := P) (motive_2 := fun cs => ∀ c ∈ cs, P c) h1 h2 (by simp)
    (fun c cs a b => by simpa using ⟨a, b⟩) t

/-- Results of the loop from child `l.length` on. -/
theorem mem_findKids {contained : Nat → Tree → Bool} {list : Bool} {i s : Nat} {cs : List Tree}
    {q : Path} : q ∈ findKids contained list i s cs ↔
      ∃ l k ds r, cs = l ++ .node k ds :: r ∧ contained (s + lens l) (.node k ds) = true ∧
        ((list = true ∧ q = []) ∨ ∃ q', q = (i + l.length) :: q' ∧
          q' ∈ findKids contained (k == .rExpressionList) 0 (s + lens l) ds) := by
  induction cs generalizing i s with
  | nil => simp [findKids]
  | cons c cs ih =>
    have shift : (∃ l k ds r, cs = l ++ .node k ds :: r ∧
        contained (s + len c + lens l) (.node k ds) = true ∧
        ((list = true ∧ q = []) ∨ ∃ q', q = (i + 1 + l.length) :: q' ∧
          q' ∈ findKids contained (k == .rExpressionList) 0 (s + len c + lens l) ds)) ↔
        ∃ l k ds r, c :: cs = (c :: l) ++ .node k ds :: r ∧
        contained (s + lens (c :: l)) (.node k ds) = true ∧
        ((list = true ∧ q = []) ∨ ∃ q', q = (i + (c :: l).length) :: q' ∧
          q' ∈ findKids contained (k == .rExpressionList) 0 (s + lens (c :: l)) ds) := by
      simp only [lens_cons, List.length_cons, List.cons_append, List.cons.injEq, true_and,
        Nat.add_assoc, Nat.add_comm 1]
    cases c with
    | token t =>
      rw [findKids, findChild, List.nil_append, ih, shift]
      constructor
      · rintro ⟨l, k, ds, r, h⟩; exact ⟨_, k, ds, r, h⟩
      · rintro ⟨l, k, ds, r, h⟩
        cases l with
        | nil => simp at h
        | cons x l =>
          have hx : x = .token t := by have := h.1; simp at this; exact this.1.symm
          subst hx
          exact ⟨l, k, ds, r, h⟩
    | node k cs' =>
      rw [findKids, findChild, List.mem_append, ih, shift]
      constructor
      · rintro (h | ⟨l, k, ds, r, h⟩)
        · split at h
          · next hc =>
            refine ⟨[], k, cs', cs, rfl, by simpa using hc, ?_⟩
            rcases List.mem_append.mp h with h | h
            · left; cases list <;> simp_all
            · right
              simp only [List.mem_map] at h
              obtain ⟨q', h1, rfl⟩ := h
              exact ⟨q', rfl, by simpa using h1⟩
          · simp at h
        · exact ⟨_, k, ds, r, h⟩
      · rintro ⟨l, k2, ds, r, h⟩
        cases l with
        | nil =>
          left
          simp only [List.nil_append, List.cons.injEq, Tree.node.injEq, lens_nil, Nat.add_zero,
            List.length_nil] at h
          obtain ⟨⟨⟨rfl, rfl⟩, rfl⟩, hc, h⟩ := h
          rw [if_pos hc, List.mem_append]
          rcases h with ⟨h1, rfl⟩ | ⟨q', rfl, h⟩
          · left; simp [h1]
          · right; exact List.mem_map_of_mem h
        | cons x l =>
          right
          have hx : x = .node k cs' := by have := h.1; simp at this; exact this.1.symm
          subst hx
          exact ⟨l, k2, ds, r, h⟩

theorem listsAll_iff {ts : List Tree} : ListsAll ts ↔ ∀ t ∈ ts, Lists false t := by
  induction ts with
  | nil => simp [ListsAll]
  | cons t ts ih => simp [ListsAll, ih]

theorem tokens_ne_child {k : Kind} {l r : List Tree} {c : Tree} (h : c.tokens ≠ []) :
    (Tree.node k (l ++ c :: r)).tokens ≠ [] := by
  simp [tokens_node, h]

/-- Containment passes from children with tokens to their parents. -/
def Up (contained : Nat → Tree → Bool) : Prop :=
  ∀ s k l c r, c.tokens ≠ [] → contained (s + lens l) c = true →
    contained s (.node k (l ++ c :: r)) = true

theorem up_full (x : Nat) : Up (inFull x) := fun _ _ _ _ _ _ h => inFull_child h
theorem up_trimmed (x : Nat) : Up (inTrimmed x) := fun _ _ _ _ _ hc h => inTrimmed_child hc h

theorem found_cons {contained : Nat → Tree → Bool} {k : Kind} {cs : List Tree} {s i : Nat} {q : Path} :
    Found contained k cs s (i :: q) ↔ ∃ l k' ds r, cs = l ++ .node k' ds :: r ∧ l.length = i ∧
      Found contained k' ds (s + lens l) q := by
  constructor
  · rintro ⟨s', ds, ho, h⟩
    cases ho with
    | @child c _ _ _ _ _ l r ho =>
      cases c with
      | token t => cases ho
      | node k' es => exact ⟨l, k', es, r, rfl, rfl, s', ds, ho, h⟩
  · rintro ⟨l, k', ds, r, rfl, rfl, s', es, ho, h⟩
    exact ⟨s', es, .child k l r ho, h⟩

theorem found_nil {contained : Nat → Tree → Bool} {k : Kind} {cs : List Tree} {s : Nat} :
    Found contained k cs s [] ↔ k = .rExpressionList ∧ ∃ l kd es r, cs = l ++ .node kd es :: r ∧
      contained (s + lens l) (.node kd es) = true := by
  constructor
  · rintro ⟨s', ds, ho, h⟩
    cases ho
    exact ⟨rfl, h⟩
  · rintro ⟨rfl, h⟩
    exact ⟨s, cs, .here _ _, h⟩

theorem found_up {contained : Nat → Tree → Bool} (hup : Up contained) {top : Bool} {q : Path} :
    ∀ {k cs s}, Lists top (.node k cs) → Found contained k cs s q →
      (Tree.node k cs).tokens ≠ [] ∧ contained s (.node k cs) = true := by
  induction q generalizing top with
  | nil =>
    intro k cs s hl hf
    obtain ⟨rfl, l, kd, es, r, rfl, hc⟩ := found_nil.mp hf
    rw [Lists] at hl
    have ht := ((hl.2.1 rfl).1 (.node kd es) (by simp)).2.1
    exact ⟨tokens_ne_child ht, hup _ _ _ _ _ ht hc⟩
  | cons i q ih =>
    intro k cs s hl hf
    obtain ⟨l, k', ds, r, rfl, rfl, hf'⟩ := found_cons.mp hf
    rw [Lists] at hl
    obtain ⟨h1, h2⟩ := ih (listsAll_iff.mp hl.2.2 (.node k' ds) (by simp)) hf'
    exact ⟨tokens_ne_child h1, hup _ _ _ _ _ h1 h2⟩

theorem mem_findKids_found {contained : Nat → Tree → Bool} (hup : Up contained) {top : Bool}
    {q : Path} : ∀ {k cs s}, Lists top (.node k cs) →
      (q ∈ findKids contained (k == .rExpressionList) 0 s cs ↔ Found contained k cs s q) := by
  induction q generalizing top with
  | nil =>
    intro k cs s hl
    rw [mem_findKids, found_nil]
    constructor
    · rintro ⟨l, kd, es, r, rfl, hc, h | ⟨q', h, _⟩⟩
      · exact ⟨by simpa using h.1, l, kd, es, r, rfl, hc⟩
      · cases h
    · rintro ⟨rfl, l, kd, es, r, rfl, hc⟩
      exact ⟨l, kd, es, r, rfl, hc, .inl ⟨by simp, rfl⟩⟩
  | cons i q ih =>
    intro k cs s hl
    rw [mem_findKids, found_cons]
    simp only [Lists] at hl
    constructor
    · rintro ⟨l, kd, es, r, rfl, hc, h | ⟨q', h, hq⟩⟩
      · cases h.2
      · simp only [Nat.zero_add, List.cons.injEq] at h
        obtain ⟨rfl, rfl⟩ := h
        exact ⟨l, kd, es, r, rfl, rfl, (ih (listsAll_iff.mp hl.2.2 (.node kd es) (by simp))).mp hq⟩
    · rintro ⟨l, kd, es, r, rfl, rfl, hf⟩
      have hl' := listsAll_iff.mp hl.2.2 (.node kd es) (by simp)
      exact ⟨l, kd, es, r, rfl, (found_up hup hl' hf).2, .inr ⟨q, by simp, (ih hl').mpr hf⟩⟩

/-- What makes the lists found a chain: a list has at most one contained child, and two children of
another node do not both have lists found below them. -/
def Single (contained : Nat → Tree → Bool) : Prop :=
  ∀ top k l c1 m k2 d2 r s, Lists top (.node k (l ++ c1 :: m ++ .node k2 d2 :: r)) →
    contained (s + lens l) c1 = true → contained (s + lens (l ++ c1 :: m)) (.node k2 d2) = true →
    k ≠ .rExpressionList ∧ (∀ k1 d1, c1 = .node k1 d1 → ∀ q, ¬ Found contained k1 d1 (s + lens l) q)

theorem nested_findKids {contained : Nat → Tree → Bool} (hup : Up contained)
    (hs : Single contained) (t : Tree) : ∀ top k cs s, t = .node k cs → Lists top t →
      Nested (findKids contained (k == .rExpressionList) 0 s cs) := by
  induction t using Tree.induct with
  | h1 t => intro _ _ _ _ h; cases h
  | h2 k cs ih =>
    intro top k' cs' s h hl
    cases h
    -- generalise over the children already seen
    have hgen : ∀ r l, cs = l ++ r →
        Nested (findKids contained (k == .rExpressionList) l.length (s + lens l) r) := by
      intro r
      induction r with
      | nil => intro l _; simp [findKids, Nested]
      | cons c r ihr =>
        intro l hcs
        have ihr' := ihr (l ++ [c]) (by simp [hcs])
        simp only [List.length_append, List.length_singleton, lens_append, lens_cons, lens_nil,
          Nat.add_zero, ← Nat.add_assoc] at ihr'
        cases c with
        | token t => rw [findKids, findChild, List.nil_append]; exact ihr'
        | node kc ds =>
          rw [findKids, findChild]
          split
          · next hc =>
            have hl' := hl
            simp only [Lists] at hl'
            have hlc := listsAll_iff.mp hl'.2.2 (.node kc ds) (by simp [hcs])
            have hin : Nested (findKids contained (kc == .rExpressionList) 0 (s + lens l) ds) :=
              ih (.node kc ds) (by simp [hcs]) false kc ds _ rfl hlc
            have hin' : Nested ((findKids contained (kc == .rExpressionList) 0 (s + lens l) ds).map
                (l.length :: ·)) := by
              rw [Nested, List.pairwise_map]
              refine List.Pairwise.imp ?_ hin
              rintro a b ⟨h1, h2⟩
              exact ⟨by simpa using h1, by simpa using h2⟩
            -- the children after a contained one contribute nothing that matters
            have hrest : (k == .rExpressionList) = true ∨
                findKids contained (kc == .rExpressionList) 0 (s + lens l) ds ≠ [] →
                findKids contained (k == .rExpressionList) (l.length + 1)
                  (s + lens l + len (.node kc ds)) r = [] := by
              intro hor
              rw [List.eq_nil_iff_forall_not_mem]
              intro q hq
              obtain ⟨m, k2, d2, r', rfl, hc2, _⟩ := mem_findKids.mp hq
              have hcs2 : cs = l ++ .node kc ds :: m ++ .node k2 d2 :: r' := by simp [hcs]
              rw [hcs2] at hl
              have hh := hs top k l (.node kc ds) m k2 d2 r' s hl hc (by
                rw [lens_append, lens_cons]; simpa [Nat.add_assoc] using hc2)
              rcases hor with h | h
              · exact hh.1 (by simpa using h)
              · obtain ⟨q', hq'⟩ := List.exists_mem_of_ne_nil _ h
                exact hh.2 kc ds rfl q' ((mem_findKids_found hup hlc).mp hq')
            by_cases hk : (k == .rExpressionList) = true
            · rw [hrest (.inl hk), List.append_nil, if_pos hk, Nested, List.singleton_append,
                List.pairwise_cons]
              refine ⟨fun a ha => ?_, hin'⟩
              obtain ⟨a', _, rfl⟩ := List.mem_map.mp ha
              exact ⟨List.nil_prefix, by simp⟩
            · rw [if_neg hk, List.nil_append]
              by_cases hz : findKids contained (kc == .rExpressionList) 0 (s + lens l) ds = []
              · rw [hz, List.map_nil, List.nil_append]; exact ihr'
              · rw [hrest (.inr hz), List.append_nil]; exact hin'
          · rw [List.nil_append]; exact ihr'
    simpa using hgen cs [] rfl

/-! ## The two ways of containing an offset -/

theorem single_full (x : Nat) : Single (inFull x) := by
  intro top k l c1 m k2 d2 r s _ h1 h2
  exfalso
  simp only [inFull, Bool.and_eq_true, decide_eq_true_eq, lens_append, lens_cons] at h1 h2
  omega

/-- A list found below a node that is not a list ends before the node does. -/
theorem found_before_end {x : Nat} {q : Path} : ∀ {k cs s}, Lists false (.node k cs) →
    k ≠ .rExpressionList → Found (inTrimmed x) k cs s q →
    x < s + len (.node k cs) - trail (.node k cs) := by
  induction q with
  | nil => intro k cs s _ hk hf; exact absurd (found_nil.mp hf).1 hk
  | cons i q ih =>
    intro k cs s hl hk hf
    obtain ⟨l, k', ds, r, hcs, rfl, hf'⟩ := found_cons.mp hf
    rw [Lists] at hl
    have hlc := listsAll_iff.mp hl.2.2 (.node k' ds) (by simp [hcs])
    obtain ⟨ht, hc⟩ := found_up (up_trimmed x) hlc hf'
    by_cases hk' : k' = .rExpressionList
    · subst hk'
      rcases hl.1 with h | ⟨h, _⟩ | ⟨a, xs, b, h, hb⟩
      · exact absurd rfl (h .rExpressionList ds (by simp [hcs]))
      · cases h
      · obtain ⟨rfl, rfl, rfl⟩ : l = [.token a] ∧ xs = ds ∧ r = [.token b] := by
          rw [h] at hcs
          rcases l with _ | ⟨a1, _ | ⟨a2, _ | ⟨a3, l⟩⟩⟩ <;> simp at hcs
          simp [hcs]
        subst h
        have hb' : 0 < b.text.length := List.length_pos_iff.mpr hb
        simp only [inTrimmed, Bool.and_eq_true, decide_eq_true_eq, lens_cons, lens_nil,
          Nat.add_zero] at hc
        have h1 : len (.node k [.token a, .node .rExpressionList xs, .token b]) =
            len (.token a) + len (.node .rExpressionList xs) + b.full.length := by
          rw [len_node, lens_cons, lens_cons, lens_cons]
          simp [len, Tree.full, Tree.tokens, Nat.add_assoc]
        have h2 : trail (.node k [.token a, .node .rExpressionList xs, .token b]) =
            (piecesText b.trailing).length := by
          have : (Tree.node k [.token a, .node .rExpressionList xs, .token b]).tokens =
              (a :: Tree.tokensList xs) ++ [b] := by simp [Tree.tokens, Tree.tokensList]
          rw [trail, this, List.getLast?_append]; simp
        have h3 := token_full_length b
        have := trail_le_len (.node .rExpressionList xs)
        omega
    · have := ih hlc hk' hf'
      subst hcs
      obtain ⟨_, h2⟩ := trimmed_child k l (.node k' ds) r ht
      have := trail_le_len (.node k' ds)
      have := trail_le_len (.node k (l ++ .node k' ds :: r))
      omega

theorem single_trimmed (x : Nat) : Single (inTrimmed x) := by
  intro top k l c1 m k2 d2 r s hl h1 h2
  rw [Lists] at hl
  have t1 := trail_le_len c1
  have t2 := lead_le_len (.node k2 d2)
  simp only [inTrimmed, Bool.and_eq_true, decide_eq_true_eq, lens_append, lens_cons] at h1 h2
  constructor
  · rintro rfl
    have hi := hl.2.1 rfl
    cases m with
    | nil =>
      have := hi.2 l c1 (.node k2 d2) r (by simp)
      simp only [lens_nil, Nat.add_zero] at h2
      omega
    | cons y m =>
      have hy : 0 < trimmedLen y := (hi.1 y (by simp)).2.2
      simp only [trimmedLen, lens_cons] at hy h2
      omega
  · rintro k1 d1 rfl q hf
    have hlc := listsAll_iff.mp hl.2.2 (.node k1 d1) (by simp)
    by_cases hk : k1 = .rExpressionList
    · subst hk
      -- a list has no other node beside it
      rcases hl.1 with h | ⟨_, xs, t, h⟩ | ⟨a, xs, b, h, _⟩
      · exact h .rExpressionList d1 (by simp) rfl
      · rcases l with _ | ⟨_, _ | ⟨_, l⟩⟩ <;> rcases m with _ | ⟨_, _ | ⟨_, m⟩⟩ <;> simp at h
      · rcases l with _ | ⟨_, _ | ⟨_, _ | ⟨_, l⟩⟩⟩ <;>
          rcases m with _ | ⟨_, _ | ⟨_, _ | ⟨_, m⟩⟩⟩ <;> simp at h
    · have := found_before_end hlc hk hf
      omega

end Verif.RangeFormat
