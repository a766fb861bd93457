import Verif.Lemmas.RangeFormat
import Verif.Props.TextChanges

/-!
# C29: range formatting
-/

namespace Verif.RangeFormat

open Syntax

/-! ## Positions -/

theorem located_append (s : Nat) (l r : List Tree) :
    located s (l ++ r) = located s l ++ located (s + lens l) r := by
  induction l generalizing s with
  | nil => simp [located]
  | cons t l ih => simp [located, ih, lens_cons, Nat.add_assoc]

theorem located_length (s : Nat) (l : List Tree) : (located s l).length = l.length := by
  induction l generalizing s with
  | nil => rfl
  | cons t l ih => simp [located, ih]

theorem mem_located {s s' : Nat} {cs : List Tree} {c : Tree} :
    (s', c) ∈ located s cs ↔ ∃ l r, cs = l ++ c :: r ∧ s' = s + lens l := by
  induction cs generalizing s with
  | nil => simp [located]
  | cons t cs ih =>
    rw [located, List.mem_cons, ih]
    constructor
    · rintro (h | ⟨l, r, rfl, rfl⟩)
      · cases h; exact ⟨[], cs, rfl, rfl⟩
      · exact ⟨t :: l, r, rfl, by rw [lens_cons]; omega⟩
    · rintro ⟨l, r, h, rfl⟩
      cases l with
      | nil => simp at h; left; simp [h.1]
      | cons x l =>
        simp only [List.cons_append, List.cons.injEq] at h
        obtain ⟨rfl, rfl⟩ := h
        exact .inr ⟨l, r, rfl, by rw [lens_cons]; omega⟩

theorem occ_nodeAt {t t' : Tree} {s s' : Nat} {p : Path} (h : Occ t s p s' t') :
    nodeAt s t p = some (s', t') := by
  induction h with
  | here => simp [nodeAt]
  | @child c s s' p t' k l r h ih =>
    rw [nodeAt, located_append, List.getElem?_append_right (by rw [located_length]; exact Nat.le_refl _),
      located_length, Nat.sub_self]
    simpa [located] using ih

/-- A selection that a list encloses, in terms of the search. -/
theorem encloses_iff {k : Kind} {cs : List Tree} {start stop : Nat} {p : Path}
    (hl : Lists true (.node k cs)) : Encloses (.node k cs) start stop p ↔
      Found (inFull start) k cs 0 p ∧ Found (inTrimmed stop) k cs 0 p := by
  have hitems : ∀ {p s ds}, Occ (.node k cs) 0 p s (.node .rExpressionList ds) → ListItems ds := by
    intro p s ds h
    have hgen : ∀ {t : Tree} {s p s' t'}, Occ t s p s' t' → ∀ top, Lists top t →
        ∃ top', Lists top' t' := by
      intro t s p s' t' h
      induction h with
      | here => intro top h; exact ⟨top, h⟩
      | @child c s s' p t' k l r h ih =>
        intro top hl
        rw [Lists] at hl
        exact ih false (listsAll_iff.mp hl.2.2 c (by simp))
    obtain ⟨top', h'⟩ := hgen h true hl
    rw [Lists] at h'
    exact h'.2.1 rfl
  constructor
  · rintro ⟨s, ds, ho, ⟨l1, c1, r1, h1, a1, a2⟩, l2, c2, r2, h2, b1, b2⟩
    have hi := hitems ho
    obtain ⟨k1, d1, rfl⟩ := (hi.1 c1 (by simp [h1])).1
    obtain ⟨k2, d2, rfl⟩ := (hi.1 c2 (by simp [h2])).1
    exact ⟨⟨s, ds, ho, l1, k1, d1, r1, h1, by simp [inFull]; omega⟩,
      ⟨s, ds, ho, l2, k2, d2, r2, h2, by simp [inTrimmed]; omega⟩⟩
  · rintro ⟨⟨s, ds, ho, l1, k1, d1, r1, h1, a⟩, s', ds', ho', l2, k2, d2, r2, h2, b⟩
    have he := (occ_nodeAt ho).symm.trans (occ_nodeAt ho')
    simp only [Option.some.injEq, Prod.mk.injEq, Tree.node.injEq, true_and] at he
    obtain ⟨rfl, rfl⟩ := he
    simp only [inFull, inTrimmed, Bool.and_eq_true, decide_eq_true_eq] at a b
    exact ⟨s, ds, ho, ⟨l1, _, r1, h1, a⟩, l2, _, r2, h2, b⟩

theorem found_prefix {c1 c2 : Nat → Tree → Bool} {k : Kind} {cs : List Tree} {s : Nat}
    (hup : Up c1) {top : Bool} (hl : Lists top (.node k cs)) {q r : Path} (hr : r <+: q)
    (hq : Found c1 k cs s q) (h2 : Found c2 k cs s r) : Found c1 k cs s r := by
  induction r generalizing q k cs s top with
  | nil =>
    obtain ⟨rfl, _⟩ := found_nil.mp h2
    cases q with
    | nil => exact hq
    | cons i q =>
      obtain ⟨l, k', ds, r, rfl, rfl, hf⟩ := found_cons.mp hq
      rw [Lists] at hl
      have := found_up hup (listsAll_iff.mp hl.2.2 (.node k' ds) (by simp)) hf
      exact found_nil.mpr ⟨rfl, l, k', ds, r, rfl, this.2⟩
  | cons i r ih =>
    cases q with
    | nil => simp at hr
    | cons j q =>
      obtain ⟨rfl, hr'⟩ := List.cons_prefix_cons.mp hr
      obtain ⟨l, k', ds, r', rfl, hi, hf⟩ := found_cons.mp hq
      obtain ⟨l2, k2, ds2, r2, he, hi2, hf2⟩ := found_cons.mp h2
      have hh := List.append_inj he (by rw [hi, hi2])
      simp only [List.cons.injEq, Tree.node.injEq] at hh
      obtain ⟨rfl, ⟨rfl, rfl⟩, rfl⟩ := hh
      rw [Lists] at hl
      exact found_cons.mpr ⟨l, k', ds, r', rfl, hi,
        ih (listsAll_iff.mp hl.2.2 (.node k' ds) (by simp)) hr' hf hf2⟩

/-- The list chosen is the deepest one that encloses the selection, if there is one. -/
theorem common_deepest {k : Kind} {cs : List Tree} (start stop : Nat)
    (hl : Lists true (.node k cs)) :
    match commonList (findLists (inFull start) (.node k cs)) (findLists (inTrimmed stop) (.node k cs)) with
    | some p => Encloses (.node k cs) start stop p ∧
        ∀ q, Encloses (.node k cs) start stop q → q <+: p
    | none => ∀ q, ¬ Encloses (.node k cs) start stop q := by
  have hA : ∀ q, q ∈ findLists (inFull start) (.node k cs) ↔ Found (inFull start) k cs 0 q :=
    fun q => mem_findKids_found (up_full start) hl
  have hB : ∀ q, q ∈ findLists (inTrimmed stop) (.node k cs) ↔ Found (inTrimmed stop) k cs 0 q :=
    fun q => mem_findKids_found (up_trimmed stop) hl
  have hd := commonList_deepest
    (nested_findKids (up_full start) (single_full start) (.node k cs) true k cs 0 rfl hl)
    (nested_findKids (up_trimmed stop) (single_trimmed stop) (.node k cs) true k cs 0 rfl hl)
    (fun q h1 h2 r hr => by
      have f1 := (hA q).mp h1
      have f2 := (hB q).mp h2
      exact ⟨fun h => (hB r).mpr (found_prefix (up_trimmed stop) hl hr f2 ((hA r).mp h)),
        fun h => (hA r).mpr (found_prefix (up_full start) hl hr f1 ((hB r).mp h))⟩)
  have hq : ∀ q, Encloses (.node k cs) start stop q → ∃ p, commonList
      (findLists (inFull start) (.node k cs)) (findLists (inTrimmed stop) (.node k cs)) = some p ∧
      q <+: p := fun q h =>
    hd q ((hA q).mpr ((encloses_iff hl).mp h).1) ((hB q).mpr ((encloses_iff hl).mp h).2)
  cases hc : commonList (findLists (inFull start) (.node k cs))
      (findLists (inTrimmed stop) (.node k cs)) with
  | none =>
    intro q h
    obtain ⟨p, h1, _⟩ := hq q h
    rw [hc] at h1; cases h1
  | some p =>
    obtain ⟨h1, h2⟩ := commonList_some hc
    refine ⟨(encloses_iff hl).mpr ⟨(hA p).mp h1, (hB p).mp h2⟩, fun q h => ?_⟩
    obtain ⟨p', h3, h4⟩ := hq q h
    rw [hc] at h3; cases h3; exact h4

/-! ## The lines chosen -/

theorem located_bounds {s : Nat} {cs : List Tree} : ∀ x ∈ located s cs,
    s ≤ x.1 ∧ x.1 + len x.2 ≤ s + lens cs := by
  rintro ⟨s', c⟩ hx
  obtain ⟨l, r, rfl, rfl⟩ := mem_located.mp hx
  simp only [lens_append, lens_cons]
  omega

theorem dropWhile_split {start s : Nat} {l r : List Tree} {c : Tree}
    (h : inFull start (s + lens l) c = true) :
    (located s (l ++ c :: r)).dropWhile (fun (s, t) => !inFull start s t) =
      located (s + lens l) (c :: r) := by
  rw [located_append, List.dropWhile_append_of_pos]
  · rw [located, List.dropWhile_cons_of_neg (by simpa using h)]
  · intro x hx
    have hb := located_bounds x hx
    simp only [inFull, Bool.and_eq_true, decide_eq_true_eq] at h
    simp [inFull]
    omega

theorem takeWhile_split (stop : Nat) (s : Nat) (cs : List Tree) :
    ∃ mid post, cs = mid ++ post ∧
      (located s cs).takeWhile (fun (s, t) => decide (s + lead t ≤ stop)) = located s mid ∧
      (∀ x ∈ located s mid, x.1 + lead x.2 ≤ stop) ∧
      ∀ x ∈ located (s + lens mid) post, stop < x.1 + lead x.2 := by
  induction cs generalizing s with
  | nil => exact ⟨[], [], rfl, rfl, by simp [located], by simp [located]⟩
  | cons c cs ih =>
    by_cases h : s + lead c ≤ stop
    · obtain ⟨mid, post, rfl, h1, h2, h3⟩ := ih (s + len c)
      refine ⟨c :: mid, post, rfl, ?_, ?_, ?_⟩
      · rw [located, List.takeWhile_cons_of_pos (by simpa using h), h1, located]
      · rw [located]
        intro x hx
        rcases List.mem_cons.mp hx with rfl | hx
        · exact h
        · exact h2 x hx
      · rw [lens_cons, ← Nat.add_assoc]; exact h3
    · refine ⟨[], c :: cs, rfl, ?_, by simp [located], ?_⟩
      · simp only [located]
        rw [List.takeWhile_cons_of_neg (by simpa using h)]
      · intro x hx
        simp only [lens_nil, Nat.add_zero] at hx
        rw [located] at hx
        rcases List.mem_cons.mp hx with rfl | hx
        · exact Nat.lt_of_not_le h
        · have := located_bounds x hx
          have := lead_le_len c
          omega

theorem occ_lists {t t' : Tree} {s s' : Nat} {p : Path} (h : Occ t s p s' t') :
    ∀ top, Lists top t → ∃ top', Lists top' t' := by
  induction h with
  | here => intro top h; exact ⟨top, h⟩
  | @child c s s' p t' k l r h ih =>
    intro top hl
    rw [Lists] at hl
    exact ih false (listsAll_iff.mp hl.2.2 c (by simp))

/-- **C29**: if no expression list encloses the selection, nothing is formatted. Otherwise the lines
are consecutive expressions of one list, and no list that encloses the selection is deeper than that
list. The lines are exactly those expressions of the list that end (with the trivia after them) after
the start of the selection and whose text begins at or before its end. There is at least one such
line unless the selection is empty. -/
theorem C29_lines (k : Kind) (cs : List Tree) (start stop : Nat) (hl : Lists true (.node k cs))
    (hle : start ≤ stop) :
    ((∀ q, ¬ Encloses (.node k cs) start stop q) ∧ logicalLines (.node k cs) start stop = []) ∨
    ∃ p s pre mid post,
      Occ (.node k cs) 0 p s (.node .rExpressionList (pre ++ mid ++ post)) ∧
      Encloses (.node k cs) start stop p ∧
      (∀ q, Encloses (.node k cs) start stop q → q <+: p) ∧
      logicalLines (.node k cs) start stop = located (s + lens pre) mid ∧
      (∀ x ∈ located s pre, x.1 + len x.2 ≤ start) ∧
      (∀ x ∈ located (s + lens pre) mid, start < x.1 + len x.2 ∧ x.1 + lead x.2 ≤ stop) ∧
      (∀ x ∈ located (s + lens (pre ++ mid)) post, stop < x.1 + lead x.2) ∧
      (start < stop → mid ≠ []) := by
  have hd := common_deepest start stop hl
  unfold logicalLines
  cases hc : commonList (findLists (inFull start) (.node k cs))
      (findLists (inTrimmed stop) (.node k cs)) with
  | none => rw [hc] at hd; exact .inl ⟨hd, rfl⟩
  | some p =>
    rw [hc] at hd
    obtain ⟨he, hdeep⟩ := hd
    right
    obtain ⟨s, ds, ho, ⟨l1, c1, r1, h1, a1, a2⟩, l2, c2, r2, h2, b1, b2⟩ := id he
    obtain ⟨mid, post, hm, e1, e2, e3⟩ := takeWhile_split stop (s + lens l1) (c1 :: r1)
    have hds : ds = l1 ++ mid ++ post := by rw [h1, hm, List.append_assoc]
    refine ⟨p, s, l1, mid, post, hds ▸ ho, he, hdeep, ?_, ?_, ?_, ?_, ?_⟩
    · simp only [occ_nodeAt ho]
      rw [h1, dropWhile_split (by simp [inFull]; omega), e1]
    · intro x hx
      have := located_bounds x hx
      omega
    · intro x hx
      refine ⟨?_, e2 x hx⟩
      cases mid with
      | nil => simp [located] at hx
      | cons m mid =>
        have hcm : c1 = m := by simp at hm; exact hm.1
        subst hcm
        rw [located] at hx
        rcases List.mem_cons.mp hx with rfl | hx
        · exact a2
        · have := located_bounds x hx
          omega
    · rw [lens_append, ← Nat.add_assoc]; exact e3
    · rintro hlt rfl
      have h3 : stop < s + lens l1 + lead c1 := by
        refine e3 (s + lens l1, c1) ?_
        have : post = c1 :: r1 := by simpa using hm.symm
        rw [this]
        simp [located]
      have hlc1 := lead_le_len c1
      have ht2 := trail_le_len c2
      -- compare the places of the two expressions
      rw [h1] at h2
      rcases List.append_eq_append_iff.mp h2 with ⟨a, ha1, ha2⟩ | ⟨a, ha1, ha2⟩
      · cases a with
        | nil =>
          simp at ha1 ha2
          obtain ⟨rfl, rfl⟩ := ha2
          subst ha1; omega
        | cons y a =>
          simp only [List.cons_append, List.cons.injEq] at ha2
          obtain ⟨rfl, _⟩ := ha2
          rw [ha1, lens_append, lens_cons] at b1
          omega
      · cases a with
        | nil =>
          simp at ha1 ha2
          obtain ⟨rfl, rfl⟩ := ha2
          subst ha1; omega
        | cons y a =>
          simp only [List.cons_append, List.cons.injEq] at ha2
          obtain ⟨rfl, _⟩ := ha2
          rw [ha1, lens_append, lens_cons] at a1
          omega

/-! ## The range replaced -/

theorem blankLead_le (t : Tree) : blankLead t ≤ lead t := by
  simp only [blankLead, lead]
  cases t.tokens with
  | nil => simp
  | cons k ts =>
    simp only [List.head?_cons, Option.map_some, Option.getD_some, piecesText]
    have h : (k.leading.takeWhile Piece.isBlank) ++ (k.leading.dropWhile Piece.isBlank) = k.leading :=
      List.takeWhile_append_dropWhile
    have h2 := congrArg (fun l => ((l.map Piece.text).flatten).length) h
    simp only [List.map_append, List.flatten_append, List.length_append] at h2
    omega

theorem blankTrail_le (t : Tree) : blankTrail t ≤ trail t := by
  simp only [blankTrail, trail]
  cases t.tokens.getLast? with
  | none => simp
  | some k =>
    simp only [Option.map_some, Option.getD_some, piecesText]
    have h : (k.trailing.reverse.takeWhile Piece.isBlank) ++
        (k.trailing.reverse.dropWhile Piece.isBlank) = k.trailing.reverse :=
      List.takeWhile_append_dropWhile
    have h2 := congrArg (fun l => ((l.map Piece.text).flatten).length) h
    simp only [List.map_append, List.flatten_append, List.length_append, List.length_flatten,
      List.map_reverse, List.map_map, List.sum_reverse] at h2 ⊢
    omega

theorem lead_trail_le (t : Tree) (h : 0 < trimmedLen t) : lead t + trail t < len t := by
  simp only [trimmedLen] at h; omega

theorem foldl_cover : ∀ (mid : List Tree) (c : Tree) (s a b : Nat), a ≤ b → b ≤ s →
    (∀ d ∈ mid ++ [c], 0 < trimmedLen d) →
    ((located s (mid ++ [c])).foldl (fun acc p => cover acc (nonBlankRange p.1 p.2)) (a, b)) =
      (a, s + lens (mid ++ [c]) - blankTrail c) := by
  intro mid c
  induction mid with
  | nil =>
    intro s a b hab hbs ht
    have h1 := lead_trail_le c (ht c (by simp))
    have h2 := blankLead_le c
    have h3 := blankTrail_le c
    simp only [List.nil_append, located, List.foldl_cons, List.foldl_nil, cover, nonBlankRange,
      lens_cons, lens_nil, Prod.mk.injEq]
    omega
  | cons d mid ih =>
    intro s a b hab hbs ht
    have h1 := lead_trail_le d (ht d (by simp))
    have h2 := blankLead_le d
    have h3 := blankTrail_le d
    have hc : cover (a, b) (nonBlankRange s d) = (a, s + len d - blankTrail d) := by
      simp only [cover, nonBlankRange, Prod.mk.injEq]
      omega
    rw [List.cons_append, located, List.foldl_cons, hc,
      ih _ _ _ (by omega) (by omega) fun e he => ht e (by simpa using .inr (by simpa using he)),
      lens_cons, Nat.add_assoc]

theorem formatRange_located {mid : List Tree} (s : Nat) (hne : mid ≠ [])
    (ht : ∀ d ∈ mid, 0 < trimmedLen d) :
    ∃ c e, mid.head? = some c ∧ mid.getLast? = some e ∧
      formatRange (located s mid) = some (s + blankLead c, s + lens mid - blankTrail e) := by
  cases mid with
  | nil => exact absurd rfl hne
  | cons c mid =>
    rcases List.eq_nil_or_concat mid with rfl | ⟨mid, e, rfl⟩
    · exact ⟨c, c, rfl, rfl, by simp [located, formatRange, nonBlankRange, lens_cons]⟩
    · rw [List.concat_eq_append] at *
      refine ⟨c, e, rfl, by
        rw [← List.cons_append, List.getLast?_append]; rfl, ?_⟩
      have h1 := lead_trail_le c (ht c (by simp))
      have h2 := blankLead_le c
      have h3 := blankTrail_le c
      rw [located, formatRange]
      unfold nonBlankRange
      have := foldl_cover mid e (s + len c) (s + blankLead c) (s + len c - blankTrail c) (by omega)
        (by omega) fun d hd => ht d (by simpa using .inr (by simpa using hd))
      unfold nonBlankRange at this
      rw [this, lens_cons, Nat.add_assoc]

theorem takeWhile_blank (l : List Piece) : ∃ rest, l = l.takeWhile Piece.isBlank ++ rest ∧
    (∀ x ∈ rest.head?, x.kind = .comment) ∧ ∀ x ∈ l.takeWhile Piece.isBlank, x.kind ≠ .comment := by
  refine ⟨l.dropWhile Piece.isBlank, List.takeWhile_append_dropWhile.symm, ?_, ?_⟩
  · intro x hx
    have := List.head?_dropWhile_not Piece.isBlank l
    rw [Option.mem_def.mp hx] at this
    simpa [Piece.isBlank] using this
  · intro x hx
    have := mem_takeWhile_imp hx
    simpa [Piece.isBlank] using this

theorem occ_text {t t' : Tree} {s s' : Nat} {p : Path} (h : Occ t s p s' t') :
    ∃ A B, t.full = A ++ t'.full ++ B ∧ s' = s + A.length := by
  induction h with
  | here t s => exact ⟨[], [], by simp, by simp⟩
  | @child c s s' p t' k l r h ih =>
    obtain ⟨A, B, h1, h2⟩ := ih
    refine ⟨((Tree.tokensList l).map Token.full).flatten ++ A,
      B ++ ((Tree.tokensList r).map Token.full).flatten, ?_, ?_⟩
    · simp only [Tree.full] at h1
      simp only [Tree.full, Tree.tokens, tokensList_append', Tree.tokensList, List.map_append, List.flatten_append, h1,
        List.append_assoc]
    · simp [h2, lens]; omega

theorem blank_around (toks : List Token) (k j : Token) (hk : toks.head? = some k)
    (hj : toks.getLast? = some j)
    (hlen : (piecesText (k.leading.takeWhile Piece.isBlank)).length +
      (piecesText (j.trailing.reverse.takeWhile Piece.isBlank).reverse).length ≤
        ((toks.map Token.full).flatten).length) :
    ∃ M, (toks.map Token.full).flatten = piecesText (k.leading.takeWhile Piece.isBlank) ++ M ++
        piecesText (j.trailing.reverse.takeWhile Piece.isBlank).reverse ∧
      BlankAround toks (k.leading.takeWhile Piece.isBlank)
        (j.trailing.reverse.takeWhile Piece.isBlank).reverse := by
  obtain ⟨r1, a1, a2, a3⟩ := takeWhile_blank k.leading
  obtain ⟨r2, b1, b2, b3⟩ := takeWhile_blank j.trailing.reverse
  have b4 : j.trailing = r2.reverse ++ (j.trailing.reverse.takeWhile Piece.isBlank).reverse := by
    rw [← List.reverse_append, ← b1, List.reverse_reverse]
  have hp : piecesText (k.leading.takeWhile Piece.isBlank) <+: (toks.map Token.full).flatten := by
    cases toks with
    | nil => cases hk
    | cons x xs =>
      simp only [List.head?_cons, Option.some.injEq] at hk
      subst hk
      refine ⟨piecesText r1 ++ x.text ++ piecesText x.trailing ++ (xs.map Token.full).flatten, ?_⟩
      have : piecesText x.leading = piecesText (x.leading.takeWhile Piece.isBlank) ++ piecesText r1 := by
        conv => lhs; rw [a1]
        simp [piecesText]
      simp only [List.map_cons, List.flatten_cons, Token.full, this, List.append_assoc]
  have hs : piecesText (j.trailing.reverse.takeWhile Piece.isBlank).reverse <:+
      (toks.map Token.full).flatten := by
    rcases List.eq_nil_or_concat toks with rfl | ⟨xs, x, rfl⟩
    · cases hj
    · rw [List.concat_eq_append] at hj ⊢
      have hj' : x = j := by simpa using hj
      subst hj'
      refine ⟨(xs.map Token.full).flatten ++ piecesText x.leading ++ x.text ++ piecesText r2.reverse, ?_⟩
      have : piecesText x.trailing = piecesText r2.reverse ++
          piecesText (x.trailing.reverse.takeWhile Piece.isBlank).reverse := by
        conv => lhs; rw [b4]
        simp [piecesText]
      simp only [List.map_append, List.map_cons, List.map_nil, List.flatten_append, List.flatten_cons,
        List.flatten_nil, List.append_nil, Token.full, this, List.append_assoc]
  obtain ⟨u, hu⟩ := hp
  obtain ⟨v, hv⟩ := hs
  have hlast : piecesText (j.trailing.reverse.takeWhile Piece.isBlank).reverse <:+ u := by
    refine List.suffix_of_suffix_length_le ⟨v, hv⟩ ⟨_, hu⟩ ?_
    rw [← hu, List.length_append] at hlen
    omega
  obtain ⟨M, hM⟩ := hlast
  refine ⟨M, by rw [← hu, ← hM, List.append_assoc], ⟨k, r1, hk, a1, a2⟩,
    ⟨j, r2.reverse, hj, b4, by simpa using b2⟩, ?_⟩
  intro x hx
  rcases List.mem_append.mp hx with h | h
  · exact a3 x h
  · exact b3 x (by simpa using h)

/-- **C29**: the text replaced is that of the chosen lines without the blank space before the first
and after the last comment or token in them. -/
theorem C29_range (k : Kind) (cs : List Tree) (start stop : Nat) (hl : Lists true (.node k cs))
    (hle : start ≤ stop) (hne : logicalLines (.node k cs) start stop ≠ []) :
    ∃ P M Q B1 B2,
      (Tree.node k cs).full = P ++ (piecesText B1 ++ M ++ piecesText B2) ++ Q ∧
      (logicalLines (.node k cs) start stop).flatMap (fun x => x.2.full) =
        piecesText B1 ++ M ++ piecesText B2 ∧
      BlankAround ((logicalLines (.node k cs) start stop).flatMap fun x => x.2.tokens) B1 B2 ∧
      M ≠ [] ∧
      formatRange (logicalLines (.node k cs) start stop) =
        some (P.length + (piecesText B1).length, P.length + (piecesText B1).length + M.length) := by
  rcases C29_lines k cs start stop hl hle with ⟨_, h⟩ | ⟨p, s, pre, mid, post, ho, -, -, h, -⟩
  · exact absurd h hne
  rw [h] at hne ⊢
  have hmid : mid ≠ [] := by rintro rfl; exact hne rfl
  obtain ⟨top, hl'⟩ := occ_lists ho true hl
  rw [Lists] at hl'
  have hitems := (hl'.2.1 rfl).1
  have ht : ∀ d ∈ mid, 0 < trimmedLen d := fun d hd => (hitems d (by simp [hd])).2.2
  have htok : ∀ d ∈ mid, d.tokens ≠ [] := fun d hd => (hitems d (by simp [hd])).2.1
  obtain ⟨c, e, hc, he, hf⟩ := formatRange_located (s + lens pre) hmid ht
  obtain ⟨A, B, hA, hs⟩ := occ_text ho
  have htokens : ∀ (q : Nat) (xs : List Tree),
      ((located q xs).flatMap fun x => x.2.tokens) = Tree.tokensList xs := by
    intro q xs
    induction xs generalizing q with
    | nil => simp [located, Tree.tokensList]
    | cons x xs ih => simp [located, Tree.tokensList, ih]
  have hfull : ∀ (q : Nat) (xs : List Tree), ((located q xs).flatMap fun x => x.2.full) =
      ((Tree.tokensList xs).map Token.full).flatten := by
    intro q xs
    induction xs generalizing q with
    | nil => simp [located, Tree.tokensList]
    | cons x xs ih => rw [located, List.flatMap_cons, ih]; simp [Tree.tokensList, Tree.full]
  rw [htokens, hfull, hf]
  -- first and last token
  have h1 : (Tree.tokensList mid).head? = c.tokens.head? := by
    cases mid with
    | nil => cases hc
    | cons x xs =>
      simp only [List.head?_cons, Option.some.injEq] at hc
      subst hc
      have := htok x (by simp)
      cases hx : x.tokens with
      | nil => exact absurd hx this
      | cons y ys => simp [Tree.tokensList, hx]
  have h2 : (Tree.tokensList mid).getLast? = e.tokens.getLast? := by
    rcases List.eq_nil_or_concat mid with rfl | ⟨xs, x, rfl⟩
    · cases he
    · rw [List.concat_eq_append] at he htok ⊢
      have he' : x = e := by simpa using he
      subst he'
      rw [tokensList_append', Tree.tokensList, Tree.tokensList, List.append_nil, List.getLast?_append]
      have := htok x (by simp)
      cases hx : x.tokens.getLast? with
      | none => simp at hx; exact absurd hx this
      | some y => simp
  obtain ⟨a, ha⟩ : ∃ a, c.tokens.head? = some a := by
    cases hx : c.tokens with
    | nil => exact absurd hx (htok c (List.mem_of_mem_head? hc))
    | cons y ys => exact ⟨y, rfl⟩
  obtain ⟨b, hb⟩ : ∃ b, e.tokens.getLast? = some b := by
    cases hx : e.tokens.getLast? with
    | none => simp at hx; exact absurd hx (htok e (List.mem_of_mem_getLast? he))
    | some y => exact ⟨y, rfl⟩
  have hbl : blankLead c = (piecesText (a.leading.takeWhile Piece.isBlank)).length := by
    simp [blankLead, ha]
  have hbt : blankTrail e = (piecesText (b.trailing.reverse.takeWhile Piece.isBlank).reverse).length := by
    simp [blankTrail, hb, piecesText, List.length_flatten, List.map_reverse, List.sum_reverse]
  have hlt : blankLead c + blankTrail e < lens mid := by
    have c1 := lead_trail_le c (ht c (List.mem_of_mem_head? hc))
    have c2 := blankLead_le c
    have e1 := lead_trail_le e (ht e (List.mem_of_mem_getLast? he))
    have e2 := blankTrail_le e
    cases mid with
    | nil => cases hc
    | cons x xs =>
      simp only [List.head?_cons, Option.some.injEq] at hc
      subst hc
      rcases List.eq_nil_or_concat xs with rfl | ⟨xs, y, rfl⟩
      · have he' : x = e := by simpa using he
        subst he'
        rw [lens_cons]; omega
      · rw [List.concat_eq_append, ← List.cons_append, List.getLast?_append] at he
        have he' : y = e := by simpa using he
        subst he'
        rw [List.concat_eq_append, lens_cons, lens_append, lens_cons]; omega
  obtain ⟨M, hM, hBA⟩ := blank_around (Tree.tokensList mid) a b (h1.trans ha) (h2.trans hb) (by
    rw [← hbl, ← hbt]; exact Nat.le_of_lt hlt)
  have hlen : lens mid = blankLead c + M.length + blankTrail e := by
    rw [lens, hM]; simp [hbl, hbt]; omega
  refine ⟨A ++ ((Tree.tokensList pre).map Token.full).flatten, M,
    ((Tree.tokensList post).map Token.full).flatten ++ B, _, _, ?_, hM, hBA, ?_, ?_⟩
  · rw [hA, ← hM]
    simp [Tree.full, Tree.tokens, tokensList_append']
  · rintro rfl
    simp only [List.length_nil] at hlen
    omega
  · rw [hlen, ← hbl]
    simp only [List.length_append, hs, Nat.zero_add, Option.some.injEq, Prod.mk.injEq]
    show _ = A.length + lens pre + _ ∧ _ = A.length + lens pre + _ + _
    omega

/-- **C29**: applying the edits of range formatting in the editor replaces the text of the chosen
lines, without the blank space around them, by what was printed for these lines in place of a whole
file, without its last character; everything else stays. The hypotheses about `a`, `m` and `b` say
that the range lies on character boundaries. -/
theorem C29_edit (format : Tree → Option (Option (List Char))) (enc : LineIndex.Encoding)
    (ending : LineEnding.Ending) (k : Kind) (cs : List Tree) (start stop : Nat) (r : Nat × Nat)
    (text a m b : List Char)
    (h : formatSelection format (.node k cs) start stop = some (some (r, text)))
    (ha : Text.size a = r.1) (hm : Text.size a + Text.size m = r.2) (hcr : '\r' ∉ a ++ m ++ b) :
    formatRange (logicalLines (.node k cs) start stop) = some r ∧
      (∃ printed, format (.node .rRoot [.node .rExpressionList
          ((logicalLines (.node k cs) start stop).map Prod.snd), .token ⟨.eof, [], [], []⟩]) =
        some (some printed) ∧ text = printed.dropLast) ∧
      ∃ es, TextChanges.replaceRangeEdit enc (LineIndex.new (a ++ m ++ b)) ending
          { start := r.1, stop := r.2 } text = some es ∧
        match ending with
        | .lf => TextChanges.LspEdits enc [] es (a ++ m ++ b) (a ++ text ++ b)
        | .crlf => TextChanges.LspEdits enc [] es (LineEnding.toCrlf '\r' '\n' (a ++ m ++ b))
            (LineEnding.toCrlf '\r' '\n' (a ++ text ++ b)) := by
  rw [formatSelection] at h
  simp only at h
  cases hr : formatRange (logicalLines (.node k cs) start stop) with
  | none => rw [hr] at h; simp at h
  | some q =>
    rw [hr] at h
    simp only at h
    split at h
    · cases hf : format (rootOf ((logicalLines (.node k cs) start stop).map Prod.snd)) with
      | none => rw [hf] at h; simp at h
      | some o =>
        rw [hf] at h
        cases o with
        | none => simp at h
        | some printed =>
          simp only [Option.some.injEq, Prod.mk.injEq] at h
          obtain ⟨h1, h2⟩ := h
          subst h1
          refine ⟨rfl, ⟨printed, hf, h2.symm⟩, ?_⟩
          obtain ⟨q1, q2⟩ := q
          simp only at ha hm
          subst ha hm
          exact TextChanges.C11_range_edit enc ending a m b text hcr
    · simp at h

/-! ## Examples -/

/-- An identifier with trivia. -/
def ident (leading : List Piece) (name : Byte) (trailing : List Piece) : Tree :=
  .node .rIdentifier [.token ⟨.ident, leading, [name], trailing⟩]

def newline : Piece := ⟨.newline, [10]⟩

/-- `a`, line end, `{`, line end, `b`, line end, `c`, line end, `}`, line end. -/
def sample : Tree :=
  .node .rRoot [
    .node .rExpressionList [
      ident [] 97 [],
      .node .rBracedExpressions [
        .token ⟨.lCurly, [newline], [123], []⟩,
        .node .rExpressionList [
          ident [newline] 98 [],
          ident [newline] 99 [⟨.whitespace, [32]⟩, ⟨.comment, [35]⟩]],
        .token ⟨.rCurly, [newline], [125], []⟩]],
    .token ⟨.eof, [newline], [], []⟩]

/-! A check for `Lists`, for the examples. -/

def isList : Tree → Bool
  | .token _ => false
  | .node k _ => k == .rExpressionList

def placesCheck (top : Bool) : List Tree → Bool
  | [.node .rExpressionList _, .token _] => top
  | [.token _, .node .rExpressionList _, .token b] => b.text != []
  | cs => cs.all fun c => !isList c

def adjacentCheck : List Tree → Bool
  | [] => true
  | [_] => true
  | x :: y :: r => decide (0 < trail x + lead y) && adjacentCheck (y :: r)

def itemCheck : Tree → Bool
  | .token _ => false
  | .node k cs => !(Tree.node k cs).tokens.isEmpty && decide (0 < trimmedLen (.node k cs))

mutual
def listsCheck (top : Bool) : Tree → Bool
  | .token _ => true
  | .node k cs => placesCheck top cs && (k != .rExpressionList || (cs.all itemCheck && adjacentCheck cs)) &&
    listsAllCheck cs
def listsAllCheck : List Tree → Bool
  | [] => true
  | t :: ts => listsCheck false t && listsAllCheck ts
end

theorem placesCheck_sound {top : Bool} {cs : List Tree} (h : placesCheck top cs = true) :
    ListPlaces top cs := by
  unfold placesCheck at h
  split at h
  · exact .inr (.inl ⟨h, _, _, rfl⟩)
  · exact .inr (.inr ⟨_, _, _, rfl, by simpa using h⟩)
  · refine .inl ?_
    intro k xs hm
    have := List.all_eq_true.mp h _ hm
    simpa [isList] using this

theorem adjacentCheck_sound {cs : List Tree} (h : adjacentCheck cs = true) :
    ∀ l x y r, cs = l ++ x :: y :: r → 0 < trail x + lead y := by
  intro l
  induction l generalizing cs with
  | nil =>
    rintro x y r rfl
    simp only [List.nil_append, adjacentCheck, Bool.and_eq_true, decide_eq_true_eq] at h
    exact h.1
  | cons z l ih =>
    rintro x y r rfl
    refine ih (cs := l ++ x :: y :: r) ?_ x y r rfl
    cases l with
    | nil => simp only [List.cons_append, List.nil_append, adjacentCheck, Bool.and_eq_true] at h ⊢; exact h.2
    | cons w l => simp only [List.cons_append, adjacentCheck, Bool.and_eq_true] at h ⊢; exact h.2

theorem itemCheck_sound {c : Tree} (h : itemCheck c = true) :
    (∃ k ds, c = .node k ds) ∧ c.tokens ≠ [] ∧ 0 < trimmedLen c := by
  cases c with
  | token t => simp [itemCheck] at h
  | node k cs =>
    simp only [itemCheck, Bool.and_eq_true, Bool.not_eq_true', decide_eq_true_eq] at h
    exact ⟨⟨_, _, rfl⟩, by simpa using h.1, h.2⟩

theorem listsAllCheck_iff {ts : List Tree} :
    listsAllCheck ts = true ↔ ∀ t ∈ ts, listsCheck false t = true := by
  induction ts with
  | nil => simp [listsAllCheck]
  | cons t ts ih => simp [listsAllCheck, ih]

theorem listsCheck_sound (t : Tree) : ∀ top, listsCheck top t = true → Lists top t := by
  induction t using Tree.induct with
  | h1 t => intro top _; rw [Lists]; trivial
  | h2 k cs ih =>
    intro top h
    simp only [listsCheck, Bool.and_eq_true, Bool.or_eq_true, List.all_eq_true] at h
    obtain ⟨⟨h1, h2⟩, h3⟩ := h
    rw [Lists]
    refine ⟨placesCheck_sound h1, ?_, listsAll_iff.mpr fun c hc =>
      ih c hc false (listsAllCheck_iff.mp h3 c hc)⟩
    rintro rfl
    rcases h2 with h2 | ⟨h2, h4⟩
    · simp at h2
    · exact ⟨fun c hc => itemCheck_sound (h2 c hc), adjacentCheck_sound h4⟩

/-- The sample meets the hypotheses of the theorems. -/
theorem sample_lists : Lists true sample := listsCheck_sound _ _ (by decide +kernel)

/-- From the middle of `b` to `c`: the two expressions in the braces, with the comment. -/
example : (logicalLines sample 4 7).map (fun x => (x.1, x.2.kind)) =
      [(3, .rIdentifier), (5, .rIdentifier)] ∧
    formatRange (logicalLines sample 4 7) = some (4, 9) := by decide +kernel

/-- From `a` to `b`: the braces as a whole. -/
example : (logicalLines sample 0 5).map (fun x => (x.1, x.2.kind)) =
      [(0, .rIdentifier), (1, .rBracedExpressions)] ∧
    formatRange (logicalLines sample 0 5) = some (0, 11) := by decide +kernel

/-- **C29** does not hold in the sense that selected expressions are always formatted: if the
selection extends past the end of the last expression, here to the end of the last line, nothing is
formatted. -/
theorem C29_selection_to_end_ignored : (Tree.node .rRoot (match sample with
      | .node _ cs => cs | .token _ => [])).full.length = 12 ∧
    logicalLines sample 0 12 = [] := by
  refine ⟨by decide +kernel, List.isEmpty_iff.mp (by decide +kernel)⟩

/-- If the end lies in the comment after `c`, the list in the braces does not count as enclosing and
the braces are formatted as a whole. -/
theorem C29_selection_to_comment : (logicalLines sample 4 9).map (fun x => x.2.kind) =
    [.rBracedExpressions] := by decide +kernel

/-- With the cursor at the end of a line nothing is formatted. -/
theorem C29_cursor_at_line_end : logicalLines sample 1 1 = [] ∧ logicalLines sample 0 0 ≠ [] := by
  refine ⟨List.isEmpty_iff.mp (by decide +kernel), ?_⟩
  rw [← List.isEmpty_eq_false_iff]; decide +kernel

/-- A selection that ends directly before an expression includes this expression. -/
theorem C29_next_included : (logicalLines sample 0 2).map (fun x => x.2.kind) =
    [.rIdentifier, .rBracedExpressions] := by decide +kernel

end Verif.RangeFormat
