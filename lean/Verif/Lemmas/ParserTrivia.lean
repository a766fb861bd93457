import Verif.Lemmas.ParserTree

/-! # Trivia between tokens -/

namespace Verif.Parser

open Syntax

/-! ## Slices -/

theorem between_length {text : List Byte} {a b : Nat} (h2 : b ≤ text.length) :
    (between text a b).length = b - a := by
  simp only [between, List.length_take, List.length_drop]; omega

@[simp] theorem between_self (text : List Byte) (a : Nat) : between text a a = [] := by
  simp [between]

theorem between_append (text : List Byte) {a b c : Nat} (h1 : a ≤ b) (h2 : b ≤ c) :
    between text a b ++ between text b c = between text a c := by
  simp only [between]
  have : text.drop b = (text.drop a).drop (b - a) := by rw [List.drop_drop]; congr 1; omega
  rw [this, show c - a = (b - a) + (c - b) by omega, List.take_add]

theorem between_all (text : List Byte) : between text 0 text.length = text := by
  simp [between]

theorem slice_some {text : List Byte} {a b : Nat} (h1 : a ≤ b) (h2 : b ≤ text.length) :
    slice text a b = some (between text a b) := by
  simp [slice, h1, h2, between]

theorem slice_eq_some {text : List Byte} {a b : Nat} {r : List Byte} (h : slice text a b = some r) :
    a ≤ b ∧ b ≤ text.length ∧ r = between text a b := by
  simp only [slice] at h
  split at h
  · rename_i hc
    exact ⟨hc.1, hc.2, (Option.some.inj h).symm⟩
  · cases h

/-- A slice that is a list of two parts. -/
theorem between_split {text : List Byte} {a c : Nat} {x y : List Byte} (hc : c ≤ text.length)
    (h : between text a c = x ++ y) (hac : a ≤ c) :
    between text a (a + x.length) = x ∧ between text (a + x.length) c = y ∧ a + x.length ≤ c := by
  have hl := between_length (a := a) hc
  rw [h, List.length_append] at hl
  have hle : a + x.length ≤ c := by omega
  have h2 := between_append text (a := a) (b := a + x.length) (c := c) (by omega) hle
  rw [h] at h2
  have hx : (between text a (a + x.length)).length = x.length := by
    rw [between_length (by omega)]; omega
  obtain ⟨e1, e2⟩ := List.append_inj h2 hx
  exact ⟨e1, e2, hle⟩

/-! ## Chains of trivia -/

/-- Trivia of one side, one after the other without gaps from `a` to `m`. -/
def Chain (side : Bool) : Nat → Nat → List Trivia → Prop
  | a, m, [] => a = m
  | a, m, t :: ts => t.trailing = side ∧ t.start = a ∧ a < t.stop ∧ Chain side t.stop m ts

theorem chain_append {side : Bool} {a m c : Nat} {x y : List Trivia} (h1 : Chain side a m x)
    (h2 : Chain side m c y) : Chain side a c (x ++ y) := by
  induction x generalizing a with
  | nil => simp only [Chain] at h1; subst h1; exact h2
  | cons t x ih => exact ⟨h1.1, h1.2.1, h1.2.2.1, ih h1.2.2.2⟩

theorem chain_le {side : Bool} {a m : Nat} {x : List Trivia} (h : Chain side a m x) : a ≤ m := by
  induction x generalizing a with
  | nil => exact Nat.le_of_eq h
  | cons t x ih => exact Nat.le_trans (Nat.le_of_lt h.2.2.1) (ih h.2.2.2)

theorem chain_start {side : Bool} {a m : Nat} {x : List Trivia} (h : Chain side a m x) :
    ∀ t ∈ x, a ≤ t.start ∧ t.start < t.stop ∧ t.stop ≤ m := by
  induction x generalizing a with
  | nil => simp
  | cons t x ih =>
    intro u hu
    rcases List.mem_cons.mp hu with rfl | hu
    · exact ⟨Nat.le_of_eq h.2.1.symm, h.2.1 ▸ h.2.2.1, chain_le h.2.2.2⟩
    · obtain ⟨h1, h2, h3⟩ := ih h.2.2.2 u hu
      exact ⟨Nat.le_trans (Nat.le_of_lt h.2.2.1) h1, h2, h3⟩

theorem chain_side {side : Bool} {a m : Nat} {x : List Trivia} (h : Chain side a m x) :
    ∀ t ∈ x, t.trailing = side := by
  induction x generalizing a with
  | nil => simp
  | cons t x ih =>
    intro u hu
    rcases List.mem_cons.mp hu with rfl | hu
    · exact h.1
    · exact ih h.2.2.2 u hu

/-- The piece belonging to a trivia. -/
def pieceOf (text : List Byte) (t : Trivia) : Piece := ⟨t.kind, between text t.start t.stop⟩

theorem chain_text (text : List Byte) {side : Bool} {a m : Nat} {x : List Trivia}
    (h : Chain side a m x) : piecesText (x.map (pieceOf text)) = between text a m := by
  induction x generalizing a with
  | nil => simp only [Chain] at h; subst h; simp [piecesText]
  | cons t x ih =>
    have := ih h.2.2.2
    simp only [piecesText, List.map_cons, List.flatten_cons] at this ⊢
    rw [this, pieceOf]
    simp only
    rw [h.2.1, between_append text (Nat.le_of_lt h.2.2.1) (chain_le h.2.2.2)]

/-- Eating a chain. -/
theorem eat_chain (text : List Byte) (side : Bool) {a m : Nat} {x : List Trivia} (rest : List Trivia)
    (h : Chain side a m x) (hr : ∀ t, rest.head? = some t → ¬ (t.trailing = side ∧ t.start = m)) :
    eatTrivia text side (x ++ rest) a = (x.map (pieceOf text), m, rest) := by
  induction x generalizing a with
  | nil =>
    simp only [Chain] at h
    subst h
    cases rest with
    | nil => simp [eatTrivia]
    | cons t rest =>
      have := hr t rfl
      simp [eatTrivia, this]
  | cons t x ih =>
    obtain ⟨h1, h2, h3, h4⟩ := h
    have hs : a + (t.stop - t.start) = t.stop := by omega
    rw [List.cons_append, eatTrivia, if_pos ⟨h1, h2⟩, hs, ih h4]
    rfl

/-! ## Deriving trivia from a gap -/

/-- Trivia consistent with the text: newlines are single line ends, whitespace is blank without a
line feed. -/
def Sound (text : List Byte) (t : Trivia) : Prop :=
  match t.kind with
  | .newline => between text t.start t.stop ∈ [[10], [13], [13, 10]]
  | .whitespace => (∀ b ∈ between text t.start t.stop, isGapByte b ∧ b ≠ 10)
  | .comment => True

theorem isWhitespace_gap {b : Byte} (h : isWhitespace b = true) : isGapByte b = true ∧ b ≠ 10 := by
  refine ⟨?_, ?_⟩
  · simp only [isWhitespace, Bool.or_eq_true, beq_iff_eq] at h
    rcases h with (((h | h) | h) | h) | h <;> subst h <;> decide
  rintro rfl
  exact absurd h (by decide)

theorem isGapByte_cases {b : Byte} (h : isGapByte b = true) :
    isWhitespace b = true ∨ b = 10 ∨ b = 13 := by
  simp only [isGapByte, List.contains_eq_mem, List.mem_cons, List.not_mem_nil, or_false,
    decide_eq_true_eq] at h
  rcases h with h | h | h | h | h | h | h <;> subst h <;> decide

/-- A pending run of whitespace. -/
theorem chain_pending {start stop : Nat} (h : start ≤ stop) :
    Chain false start stop (if start = stop then [] else [⟨.whitespace, start, stop, false⟩]) := by
  split
  · simpa [Chain]
  · simp [Chain]; omega

theorem sound_pending {text : List Byte} {start stop : Nat}
    (h : (between text start stop).all isWhitespace) :
    ∀ t ∈ (if start = stop then [] else [⟨.whitespace, start, stop, false⟩] : List Trivia),
      Sound text t ∧ t.kind ≠ .comment := by
  intro t ht
  split at ht
  · simp at ht
  · obtain rfl := List.mem_singleton.mp ht
    refine ⟨?_, by simp⟩
    intro b hb
    exact isWhitespace_gap (List.all_eq_true.mp h b hb)

theorem lead_ok (text : List Byte) (bs : List Byte) (start stop : Nat) (hb : bs.all isGapByte)
    (hl : stop + bs.length ≤ text.length) (ht : between text stop (stop + bs.length) = bs)
    (hs : start ≤ stop) (hw : (between text start stop).all isWhitespace) :
    ∃ ts, leadTrivia bs start stop = some ts ∧ Chain false start (stop + bs.length) ts ∧
      ∀ t ∈ ts, Sound text t ∧ t.kind ≠ .comment := by
  fun_induction leadTrivia bs start stop with
  | case1 start stop => exact ⟨_, rfl, chain_pending hs, sound_pending hw⟩
  | case2 bs start stop ih =>
    simp only [List.length_cons] at hl ht ⊢
    obtain ⟨e1, e2, e3⟩ := between_split (x := [13, 10]) (y := bs) hl ht (by omega)
    simp only [List.length_cons, List.length_nil] at e1 e2 e3
    obtain ⟨ts, h1, h2, h3⟩ := ih (by simp at hb; simpa using hb.2.2) (by omega)
      (by rw [show stop + 2 + bs.length = stop + (bs.length + 1 + 1) by omega]; exact e2)
      (by omega) (by simp)
    refine ⟨_, by rw [h1]; rfl, ?_, ?_⟩
    · refine chain_append (chain_pending hs) ⟨rfl, rfl, by simp, ?_⟩
      rw [show stop + (bs.length + 1 + 1) = stop + 2 + bs.length by omega]
      exact h2
    · intro t htm
      rcases List.mem_append.mp htm with hm | hm
      · exact sound_pending hw t hm
      · rcases List.mem_cons.mp hm with rfl | hm
        · exact ⟨by simp [Sound, e1], by simp⟩
        · exact h3 t hm
  | case3 b bs start stop _ hwb ih =>
    simp only [List.length_cons] at hl ht ⊢
    obtain ⟨e1, e2, e3⟩ := between_split (x := [b]) (y := bs) hl ht (by omega)
    simp only [List.length_cons, List.length_nil] at e1 e2 e3
    obtain ⟨ts, h1, h2, h3⟩ := ih (by simp at hb; simpa using hb.2) (by omega)
      (by rw [show stop + 1 + bs.length = stop + (bs.length + 1) by omega]; exact e2)
      (by omega) (by
        rw [← between_append text hs (show stop ≤ stop + 1 by omega), e1]
        simpa [hwb] using hw)
    refine ⟨ts, h1, ?_, h3⟩
    rw [show stop + (bs.length + 1) = stop + 1 + bs.length by omega]
    exact h2
  | case4 b bs start stop _ hwb hnl ih =>
    simp only [List.length_cons] at hl ht ⊢
    obtain ⟨e1, e2, e3⟩ := between_split (x := [b]) (y := bs) hl ht (by omega)
    simp only [List.length_cons, List.length_nil] at e1 e2 e3
    obtain ⟨ts, h1, h2, h3⟩ := ih (by simp at hb; simpa using hb.2) (by omega)
      (by rw [show stop + 1 + bs.length = stop + (bs.length + 1) by omega]; exact e2)
      (by omega) (by simp)
    refine ⟨_, by rw [h1]; rfl, ?_, ?_⟩
    · refine chain_append (chain_pending hs) ⟨rfl, rfl, by simp, ?_⟩
      rw [show stop + (bs.length + 1) = stop + 1 + bs.length by omega]
      exact h2
    · intro t htm
      rcases List.mem_append.mp htm with hm | hm
      · exact sound_pending hw t hm
      · rcases List.mem_cons.mp hm with rfl | hm
        · refine ⟨?_, by simp⟩
          rcases hnl with rfl | rfl <;> simp [Sound, e1]
        · exact h3 t hm
  | case5 b bs start stop _ hwb hnl =>
    exfalso
    simp only [List.all_cons, Bool.and_eq_true] at hb
    rcases isGapByte_cases hb.1 with h | h | h
    · exact hwb h
    · exact hnl (.inr h)
    · exact hnl (.inl h)

theorem takeWhile_no {p : Byte → Bool} {l : List Byte} : ∀ b ∈ l.takeWhile p, p b = true := by
  induction l with
  | nil => simp
  | cons x l ih =>
    intro b hb
    rw [List.takeWhile_cons] at hb
    split at hb
    · rename_i h
      rcases List.mem_cons.mp hb with rfl | hb
      · exact h
      · exact ih b hb
    · simp at hb

/-- Trivia derived from a gap. -/
theorem derive_ok (text : List Byte) (b : Bool) {a s : Nat} (h1 : a ≤ s) (h2 : s ≤ text.length)
    (hg : (between text a s).all isGapByte) :
    ∃ T L m, deriveTrivia (between text a s) a b = some (T ++ L) ∧ Chain true a m T ∧
      Chain false m s L ∧ (∀ t ∈ T ++ L, Sound text t ∧ t.kind ≠ .comment) ∧
      (∀ t ∈ T, t.kind = .whitespace) ∧ (b = false → T = []) ∧
      (LineEnd (between text a s) → T = []) := by
  have hlen := between_length (a := a) h2
  cases b with
  | false =>
    obtain ⟨ts, e1, e2, e3⟩ := lead_ok text (between text a s) a a hg (by omega)
      (by rw [hlen, show a + (s - a) = s by omega]) (Nat.le_refl a) (by simp)
    rw [hlen, show a + (s - a) = s by omega] at e2
    exact ⟨[], ts, a, by simpa [deriveTrivia] using e1, rfl, e2, by simpa using e3, by simp, by simp,
      by simp⟩
  | true =>
    simp only [deriveTrivia, if_true]
    have hsp := (List.takeWhile_append_dropWhile (p := fun b : Byte => !(b == 13 || b == 10))
      (l := between text a s)).symm
    have hws := takeWhile_no (p := fun b : Byte => !(b == 13 || b == 10)) (l := between text a s)
    have hhead : LineEnd (between text a s) →
        (between text a s).takeWhile (fun b : Byte => !(b == 13 || b == 10)) = [] := by
      rintro ⟨r, h | h⟩ <;> rw [h] <;> simp
    generalize (between text a s).takeWhile (fun b : Byte => !(b == 13 || b == 10)) = ws at *
    generalize (between text a s).dropWhile (fun b : Byte => !(b == 13 || b == 10)) = rest at *
    rw [hsp, List.all_append, Bool.and_eq_true] at hg
    obtain ⟨e1, e2, e3⟩ := between_split h2 hsp h1
    have hrl : a + ws.length + rest.length = s := by
      rw [hsp, List.length_append] at hlen; omega
    obtain ⟨ts, d1, d2, d3⟩ := lead_ok text rest (a + ws.length) (a + ws.length) hg.2 (by omega)
      (by rw [hrl]; exact e2) (Nat.le_refl _) (by simp)
    rw [hrl] at d2
    simp only [d1]
    have hsound : ∀ tr, Sound text ⟨.whitespace, a, a + ws.length, tr⟩ := by
      intro tr b hb
      rw [e1] at hb
      have := hws b hb
      simp only [Bool.not_eq_true', Bool.or_eq_false_iff, beq_eq_false_iff_ne] at this
      exact ⟨List.all_eq_true.mp hg.1 b hb, this.2⟩
    by_cases hw : ws = []
    · subst hw
      refine ⟨[], ts, a, by simp, rfl, by simpa using d2, by simpa using d3, by simp, by simp,
        by simp⟩
    · have hne : a ≠ a + ws.length := by
        have := List.length_pos_iff.mpr hw; omega
      by_cases hr : rest = []
      · subst hr
        have : ts = [] := by simpa [leadTrivia] using d1.symm
        subst this
        simp only [Chain] at d2
        refine ⟨[], [⟨.whitespace, a, a + ws.length, false⟩], a, ?_, rfl, ⟨rfl, rfl, ?_, d2⟩, ?_,
          by simp, by simp, by simp⟩
        · simp [hne, Ne.symm, hw]
        · simp; omega
        · simp [hsound]
      · refine ⟨[⟨.whitespace, a, a + ws.length, true⟩], ts, a + ws.length, ?_, ⟨rfl, rfl, ?_, rfl⟩,
          d2, ?_, by simp, by simp, ?_⟩
        · have : rest.isEmpty = false := by cases rest <;> simp_all
          simp [hw, this]
        · simp; omega
        · intro t ht
          rcases List.mem_append.mp ht with h | h
          · obtain rfl := List.mem_singleton.mp h
            exact ⟨hsound true, by simp⟩
          · exact d3 t h
        · intro h; exact absurd (hhead h) hw

/-! ## Between two tokens -/

/-- The comments among trivia. -/
def commentsOf (ts : List Trivia) : List (Nat × Nat) :=
  (ts.filter fun t => t.kind == .comment).map fun t => (t.start, t.stop)

theorem commentsOf_append (x y : List Trivia) :
    commentsOf (x ++ y) = commentsOf x ++ commentsOf y := by simp [commentsOf]

theorem commentsOf_eq_nil {x : List Trivia} (h : ∀ t ∈ x, t.kind ≠ .comment) : commentsOf x = [] := by
  simp only [commentsOf, List.map_eq_nil_iff, List.filter_eq_nil_iff]
  intro t ht; simpa using h t ht

/-- A newline piece with a line feed. -/
def IsLf (text : List Byte) (t : Trivia) : Prop :=
  t.kind = .newline ∧ 10 ∈ between text t.start t.stop

/-- Trivia produced from position `a`, the end of a token if `b`, up to `pos`: trailing trivia of
that token, then leading trivia of the next. -/
structure GapParts (text : List Byte) (b : Bool) (a pos : Nat) (cs : List (Nat × Nat))
    (T L : List Trivia) (m : Nat) : Prop where
  trailing : Chain true a m T
  leading : Chain false m pos L
  sound : ∀ t ∈ T ++ L, Sound text t
  noNewline : ∀ t ∈ T, t.kind ≠ .newline ∧ 10 ∉ between text t.start t.stop
  first : b = false → T = []
  comments : commentsOf (T ++ L) = cs
  newLine : b = true → ∀ A c B, L = A ++ c :: B → c.kind = .comment → ∃ n ∈ A, IsLf text n

theorem gap_start (text : List Byte) (b : Bool) (a : Nat) : GapParts text b a a [] [] [] a :=
  ⟨rfl, rfl, by simp, by simp, by simp, rfl, by simp⟩

/-- A list whose elements are not comments only adds to what precedes a comment. -/
theorem newLine_append {text : List Byte} {X Y : List Trivia} (hY : ∀ t ∈ Y, t.kind ≠ .comment)
    (h : ∀ A c B, X = A ++ c :: B → c.kind = .comment → ∃ n ∈ A, IsLf text n) :
    ∀ A c B, X ++ Y = A ++ c :: B → c.kind = .comment → ∃ n ∈ A, IsLf text n := by
  intro A c B e hc
  rcases List.append_eq_append_iff.mp e with ⟨A', rfl, h2⟩ | ⟨B', h1, h2⟩
  · exact absurd hc (hY c (by rw [h2]; simp))
  · cases B' with
    | nil =>
      simp only [List.append_nil, List.nil_append] at h1 h2
      exact absurd hc (hY c (by rw [← h2]; simp))
    | cons x B' =>
      simp only [List.cons_append, List.cons.injEq] at h2
      obtain ⟨rfl, _⟩ := h2
      exact h A c B' h1 hc

/-- Deriving trivia in the middle of a gap. `b'` is the flag given to `derive_trivia`. -/
theorem gap_derive {text : List Byte} {b b' cmt : Bool} {a pos s m : Nat} {cs : List (Nat × Nat)}
    {T L : List Trivia} (hG : GapParts text b a pos cs T L m) (hb : b' = b ∨ b' = false)
    (hc : cmt = false → T = [] ∧ L = []) (hp : pos ≤ s) (hs : s ≤ text.length)
    (hgap : (between text pos s).all isGapByte)
    (hh : cmt = true → between text pos s ≠ [] → LineEnd (between text pos s)) :
    ∃ T' L' m' ts, deriveTrivia (between text pos s) pos b' = some ts ∧ T ++ L ++ ts = T' ++ L' ∧
      GapParts text b a s cs T' L' m' ∧
      (10 ∈ between text pos s → ∃ n ∈ L', IsLf text n) := by
  obtain ⟨T1, L1, m1, d1, d2, d3, d4, d5, d6, d7⟩ := derive_ok text b' hp hs hgap
  have hT1 : ∀ t ∈ T1, t.kind ≠ .newline ∧ 10 ∉ between text t.start t.stop := by
    intro t ht
    have hk := d5 t ht
    refine ⟨by rw [hk]; simp, fun hm => ?_⟩
    have := (d4 t (by simp [ht])).1
    simp only [Sound, hk] at this
    exact (this 10 hm).2 rfl
  have hlf : 10 ∈ between text pos s → ∃ n ∈ L1, IsLf text n := by
    intro h10
    rw [← between_append text (chain_le d2) (chain_le d3), ← chain_text text d2, ← chain_text text d3,
      List.mem_append] at h10
    simp only [piecesText, List.mem_flatten, List.mem_map] at h10
    rcases h10 with ⟨_, ⟨_, ⟨t, ht, rfl⟩, rfl⟩, h⟩ | ⟨_, ⟨_, ⟨t, ht, rfl⟩, rfl⟩, h⟩
    · exact absurd h (hT1 t ht).2
    · refine ⟨t, ht, ?_, h⟩
      obtain ⟨q1, q2⟩ := d4 t (by simp [ht])
      cases hk : t.kind with
      | newline => rfl
      | whitespace =>
        simp only [Sound, hk] at q1
        exact absurd rfl (q1 10 h).2
      | comment => exact absurd hk q2
  cases cmt with
  | false =>
    obtain ⟨rfl, rfl⟩ := hc rfl
    have h1 := hG.trailing
    have h2 := hG.leading
    simp only [Chain] at h1 h2
    subst h1 h2
    refine ⟨T1, L1, m1, T1 ++ L1, d1, by simp, ⟨d2, d3, fun t ht => (d4 t ht).1, hT1, ?_, ?_, ?_⟩, hlf⟩
    · intro h; exact d6 (by rcases hb with h' | h' <;> simp [h', h])
    · rw [← hG.comments, commentsOf_eq_nil fun t ht => (d4 t ht).2]; rfl
    · intro _ A c B e hk
      exact absurd hk (d4 c (by simp [e])).2
  | true =>
    have hT : T1 = [] := by
      by_cases hg : between text pos s = []
      · have hps : pos = s := by
          have := between_length (a := pos) hs
          rw [hg] at this; simp at this; omega
        subst hps
        have := chain_le d3
        cases T1 with
        | nil => rfl
        | cons t T1 =>
          have := d2.2.2.1
          have := chain_le d2.2.2.2
          omega
      · exact d7 (hh rfl hg)
    subst hT
    have hm : pos = m1 := d2
    subst hm
    refine ⟨T, L ++ L1, m, L1, by simpa using d1, by simp, ⟨hG.trailing, chain_append hG.leading d3,
      ?_, hG.noNewline, hG.first, ?_, ?_⟩, ?_⟩
    · intro t ht
      rw [← List.append_assoc, List.mem_append] at ht
      rcases ht with h | h
      · exact hG.sound t h
      · exact (d4 t (by simpa using h)).1
    · rw [← List.append_assoc, commentsOf_append, hG.comments,
        commentsOf_eq_nil fun t ht => (d4 t (by simpa using ht)).2, List.append_nil]
    · intro h
      exact newLine_append (fun t ht => (d4 t (by simpa using ht)).2) (hG.newLine h)
    · intro h
      obtain ⟨n, hn, hl⟩ := hlf h
      exact ⟨n, by simp [hn], hl⟩

theorem newLine_snoc {text : List Byte} {X : List Trivia} {y : Trivia}
    (h : ∀ A c B, X = A ++ c :: B → c.kind = .comment → ∃ n ∈ A, IsLf text n)
    (hy : ∃ n ∈ X, IsLf text n) :
    ∀ A c B, X ++ [y] = A ++ c :: B → c.kind = .comment → ∃ n ∈ A, IsLf text n := by
  intro A c B e hc
  rcases List.eq_nil_or_concat B with rfl | ⟨B', z, rfl⟩
  · have := List.append_inj' e rfl
    rw [← this.1]
    exact hy
  · have e' : X ++ [y] = (A ++ c :: B') ++ [z] := by simpa using e
    exact h A c B' (List.append_inj' e' rfl).1 hc

/-- A comment in the middle of a gap. -/
theorem gap_comment {text : List Byte} {b cmt : Bool} {a pos s e m : Nat} {cs : List (Nat × Nat)}
    {T L : List Trivia} (hG : GapParts text b a pos cs T L m)
    (hc : cmt = false → T = [] ∧ L = []) (hp : pos ≤ s) (hse : s < e) (hs : e ≤ text.length)
    (hgap : (between text pos s).all isGapByte)
    (hh : cmt = true → LineEnd (between text pos s))
    (hn : 10 ∉ between text s e) (tv : List Trivia) :
    ∃ T' L' m', commentStep text s e ⟨tv ++ (T ++ L), pos, b⟩ = some ⟨tv ++ (T' ++ L'), e, b⟩ ∧
      GapParts text b a e (cs ++ [(s, e)]) T' L' m' := by
  have hsl := slice_some hp (Nat.le_trans (Nat.le_of_lt hse) hs)
  simp only [commentStep, hsl, Option.bind_eq_bind, Option.bind_some]
  by_cases h10 : 10 ∈ between text pos s
  · obtain ⟨T', L', m', ts, d1, d2, d3, d4⟩ := gap_derive hG (.inl rfl) hc hp
      (Nat.le_trans (Nat.le_of_lt hse) hs) hgap
      (fun h _ => hh h)
    refine ⟨T', L' ++ [⟨.comment, s, e, false⟩], m', ?_, ?_⟩
    · rw [if_pos (by simpa using h10), d1]
      have : tv ++ (T ++ L) ++ ts = tv ++ (T' ++ L') := by
        rw [List.append_assoc, d2]
      simp only [Option.bind_some, this]
      simp
    · refine ⟨d3.trailing, chain_append d3.leading ⟨rfl, rfl, hse, rfl⟩, ?_, d3.noNewline, d3.first,
        ?_, ?_⟩
      · intro t ht
        rw [← List.append_assoc, List.mem_append] at ht
        rcases ht with h | h
        · exact d3.sound t h
        · rw [List.mem_singleton.mp h]; trivial
      · rw [← List.append_assoc, commentsOf_append, d3.comments]; rfl
      · intro hb
        exact newLine_snoc (d3.newLine hb) (d4 h10)
  · have hcm : cmt = false := by
      cases cmt with
      | false => rfl
      | true =>
        obtain ⟨r, h | h⟩ := hh rfl <;> rw [h] at h10 <;> simp at h10
    obtain ⟨rfl, rfl⟩ := hc hcm
    have h1 := hG.trailing
    have h2 := hG.leading
    simp only [Chain] at h1 h2
    subst h1 h2
    rw [if_neg (by simpa using h10)]
    have hcs : cs = [] := hG.comments.symm
    subst hcs
    generalize hw : (if s = a then [] else [⟨.whitespace, a, s, b⟩] : List Trivia) = ws
    have hch : Chain b a e (ws ++ [⟨.comment, s, e, b⟩]) := by
      refine chain_append (m := s) ?_ ⟨rfl, rfl, hse, rfl⟩
      rw [← hw]
      split
      · rename_i h; simp [Chain, h]
      · simp [Chain]; omega
    have hws : ∀ t ∈ ws, t = ⟨.whitespace, a, s, b⟩ := by
      intro t ht; rw [← hw] at ht; split at ht <;> simp at ht; exact ht
    have hsound : ∀ t ∈ ws ++ [⟨.comment, s, e, b⟩], Sound text t := by
      intro t ht
      rcases List.mem_append.mp ht with h | h
      · rw [hws t h]
        intro x hx
        exact ⟨List.all_eq_true.mp hgap x hx, fun h => h10 (h ▸ hx)⟩
      · rw [List.mem_singleton.mp h]; trivial
    have hcom : commentsOf (ws ++ [⟨.comment, s, e, b⟩]) = [(s, e)] := by
      rw [commentsOf_append, commentsOf_eq_nil fun t ht => by rw [hws t ht]; simp]; rfl
    cases b with
    | true =>
      refine ⟨ws ++ [⟨.comment, s, e, true⟩], [], e, by simp, hch, rfl, by simpa using hsound, ?_,
        by simp, by simpa using hcom, by simp⟩
      intro t ht
      rcases List.mem_append.mp ht with h | h
      · rw [hws t h]; exact ⟨by simp, h10⟩
      · rw [List.mem_singleton.mp h]; exact ⟨by simp, hn⟩
    | false =>
      exact ⟨[], ws ++ [⟨.comment, s, e, false⟩], a, by simp, rfl, hch, by simpa using hsound, by simp,
        by simp, by simpa using hcom, by simp⟩

/-! ## All tokens -/

/-- Comments among the leaves. -/
def leafComments (ls : List Leaf) : List (Nat × Nat) :=
  (ls.filter fun l => l.isComment).map fun l => (l.start, l.stop)

/-- Kind and text of the tokens among the leaves. -/
def leafTexts (text : List Byte) (ls : List Leaf) : List (Kind × List Byte) :=
  (ls.filter fun l => !l.isComment).map fun l => (l.kind, between text l.start l.stop)

theorem pieceComments_of (text : List Byte) (ts : List Trivia) :
    pieceComments (ts.map (pieceOf text)) = (commentsOf ts).map fun c => between text c.1 c.2 := by
  induction ts with
  | nil => rfl
  | cons t ts ih =>
    simp only [pieceComments, commentsOf, List.map_cons, List.filter_cons, pieceOf] at ih ⊢
    cases hk : t.kind <;> simp_all

theorem sound_piece {text : List Byte} {t : Trivia} (h : Sound text t) : PieceOk (pieceOf text t) := h

theorem ownLine_of {text : List Byte} {L : List Trivia}
    (h : ∀ A c B, L = A ++ c :: B → c.kind = .comment → ∃ n ∈ A, IsLf text n) :
    CommentsOnOwnLine (L.map (pieceOf text)) := by
  intro A c B e hc
  obtain ⟨A', r, rfl, rfl, h2⟩ := List.map_eq_append_iff.mp e
  obtain ⟨c', B', rfl, rfl, rfl⟩ := List.map_eq_cons_iff.mp h2
  obtain ⟨n, hn, h1, h2⟩ := h A' c' B' rfl hc
  exact ⟨pieceOf text n, List.mem_map_of_mem hn, h1, h2⟩

/-- The line ends at this position. -/
def EndsLine (text : List Byte) (e : Nat) : Prop := text.drop e ≠ [] → LineEnd (text.drop e)

theorem between_drop (text : List Byte) {a b : Nat} (h : a ≤ b) :
    between text a b ++ text.drop b = text.drop a := by
  have : text.drop b = (text.drop a).drop (b - a) := by rw [List.drop_drop]; congr 1; omega
  rw [between, this, List.take_append_drop]

theorem drop_between (text : List Byte) (a : Nat) : text.drop a = between text a text.length := by
  rw [between, List.take_of_length_le]
  simp

theorem chain_commentsEnd {text : List Byte} {side : Bool} {a m : Nat} {x : List Trivia}
    (h : Chain side a m x) (he : ∀ c ∈ commentsOf x, EndsLine text c.2) :
    CommentsEnd (x.map (pieceOf text)) (text.drop m) := by
  induction x generalizing a with
  | nil => trivial
  | cons t x ih =>
    refine ⟨fun hk hb => ?_, ih h.2.2.2 fun c hc => he c ?_⟩
    · rw [chain_text text h.2.2.2, between_drop text (chain_le h.2.2.2)] at hb ⊢
      refine he (t.start, t.stop) ?_ hb
      have hk : t.kind = .comment := hk
      simp [commentsOf, hk]
    · have : commentsOf (t :: x) = commentsOf [t] ++ commentsOf x := commentsOf_append [t] x
      rw [this]
      exact List.mem_append_right _ hc

theorem chain_empty {side : Bool} {a m : Nat} {x : List Trivia} (h : Chain side a m x) (hm : m ≤ a) :
    x = [] := by
  cases x with
  | nil => rfl
  | cons t x =>
    have h1 := h.2.2.1
    have h2 := chain_le h.2.2.2
    omega

theorem tiled_endsLine {text : List Byte} {pos : Nat} {ls : List Leaf}
    (h : Tiled text text.length pos true ls) : EndsLine text pos := by
  intro hb
  cases ls with
  | nil =>
    obtain ⟨h1, h2, h3, h4⟩ := h
    rw [← drop_between] at h4
    exact h4 rfl hb
  | cons l ls =>
    obtain ⟨h1, h2, h3, h4, h5, -⟩ := h
    obtain ⟨r, h5⟩ := h5 rfl
    rw [← between_drop text h1]
    exact ⟨r ++ text.drop l.start, h5.imp (fun h => by rw [h]; rfl) (fun h => by rw [h]; rfl)⟩

/-- More about the tokens that are built: where comments end and which tokens are adjacent. -/
structure Details (text : List Byte) (ls : List Leaf) (cs : List (Nat × Nat)) (q m : Nat)
    (T L : List Trivia) (hd : Token) (tl : List Token) : Prop where
  leading : hd.leading = L.map (pieceOf text)
  next : ∀ l r, ls = l :: r → l.isComment = false → q = l.start
  comments : (∀ c ∈ cs, EndsLine text c.2) → (∀ c ∈ commentsOf (T ++ L), EndsLine text c.2) ∧
    CommentsEndAll (hd :: tl)
  rest : ((hd :: tl).map Token.full).flatten = text.drop m
  unbroken : Joined ls → Unbroken (hd :: tl)
  last : ∀ t, (hd :: tl).getLast? = some t → t.trailing = []

/-- What the sink builds from the trivia of a tiled list of leaves. -/
theorem tiles_ok (text : List Byte) (ls : List Leaf) (b cmt : Bool) (a pos m : Nat)
    (cs : List (Nat × Nat)) (T L tv : List Trivia) (ht : Tiled text text.length pos cmt ls)
    (hG : GapParts text b a pos cs T L m) (hc : cmt = false → T = [] ∧ L = []) :
    ∃ T' L' m' q R hd tl p, (leafFold text ls ⟨tv ++ (T ++ L), pos, b⟩).bind
        (rootStep text text.length) = some p ∧ p.trivia = tv ++ (T' ++ L') ++ R ∧
      GapParts text b a q (commentsOf (T' ++ L')) T' L' m' ∧ (∀ x ∈ R, q < x.start) ∧
      (∃ e, fillToks text (leafToks ls ++ [(.eof, text.length)]) m' (L' ++ R) =
        some (hd :: tl, e, [])) ∧
      ((hd :: tl).map fun t => (t.kind, t.text)) = leafTexts text ls ++ [(.eof, [])] ∧
      piecesText (T'.map (pieceOf text)) ++ ((hd :: tl).map Token.full).flatten =
        between text a text.length ∧
      pieceComments (T'.map (pieceOf text)) ++ ((hd :: tl).map tokenComments).flatten =
        (cs ++ leafComments ls).map (fun c => between text c.1 c.2) ∧
      TriviaOk (!b) hd ∧ (∀ t ∈ tl, TriviaOk false t) ∧ Details text ls cs q m' T' L' hd tl := by
  induction ls generalizing b cmt a pos m cs T L tv with
  | nil =>
    obtain ⟨h1, h2, h3, h4⟩ := ht
    obtain ⟨T', L', m', ts, d1, d2, d3, d4⟩ := gap_derive hG (b' := false) (.inr rfl) hc h1 h2 h3 h4
    have he := eat_chain text false [] d3.leading (by simp)
    rw [List.append_nil] at he
    refine ⟨T', L', m', text.length, [], ⟨.eof, L'.map (pieceOf text), [], []⟩, [],
      ⟨tv ++ (T ++ L) ++ ts, pos, false⟩, ?_, ?_, ?_,
      by simp, ⟨text.length, ?_⟩, by simp [leafTexts], ?_, ?_, ⟨?_, by simp, ?_⟩, by simp,
      ⟨rfl, by simp, fun hcs => ?_, ?_, ?_, fun t ht => (by cases ht; rfl)⟩⟩
    · simp only [leafFold_nil, Option.bind_some, rootStep, slice_some h1 h2, Option.bind_eq_bind, d1]
    · simp only [List.append_assoc, List.append_nil, ← d2]
    · rw [d3.comments]; exact d3
    · simp [leafToks, fillToks, buildToken, he, slice, eatTrivia]
    · simp only [List.map_cons, List.map_nil, List.flatten_cons, List.flatten_nil, Token.full,
        List.append_nil]
      rw [chain_text text d3.trailing, chain_text text d3.leading]
      simp only [piecesText, List.map_nil, List.flatten_nil, List.append_nil]
      exact between_append text (chain_le d3.trailing) (chain_le d3.leading)
    · simp only [List.map_cons, List.map_nil, List.flatten_cons, List.flatten_nil, tokenComments,
        List.append_nil, leafComments, List.filter_nil]
      rw [pieceComments_of, pieceComments_of, ← List.map_append, ← commentsOf_append, d3.comments]
    · intro p hp
      simp only [List.append_nil, List.mem_map] at hp
      obtain ⟨t, ht, rfl⟩ := hp
      exact sound_piece (d3.sound t (by simp [ht]))
    · intro hb
      exact ownLine_of (d3.newLine (by simpa using hb))
    · have hall : ∀ c ∈ commentsOf (T' ++ L'), EndsLine text c.2 := by rw [d3.comments]; exact hcs
      refine ⟨hall, ?_, trivial, trivial⟩
      have := chain_commentsEnd d3.leading fun c hc => hall c (by
        rw [commentsOf_append]; exact List.mem_append_right _ hc)
      simpa [piecesText] using this
    · simp only [List.map_cons, List.map_nil, List.flatten_cons, List.flatten_nil, Token.full,
        List.append_nil]
      rw [chain_text text d3.leading, drop_between]
      simp [piecesText]
    · intro _
      exact ⟨fun h => (by rcases h with h | h <;> cases h), trivial⟩
  | cons l ls ih =>
    obtain ⟨h1, h2, h3, h4, h5, h6, h7⟩ := ht
    rw [leafFold_cons]
    by_cases hl : l.isComment = true
    · obtain ⟨T1, L1, m1, d1, d2⟩ := gap_comment hG hc h1 h2 h3 h4 h5 (h6 hl) tv
      rw [hl] at h7
      obtain ⟨T', L', m', q, R, hd, tl, p, e1, e2, e3, e4, e5, e6, e7, e8, e9, e10, e11⟩ :=
        ih b true a l.stop m1 (cs ++ [(l.start, l.stop)]) T1 L1 tv h7 d2 (by simp)
      refine ⟨T', L', m', q, R, hd, tl, p, ?_, e2, e3, e4, ?_, ?_, e7, ?_, e9, e10,
        e11.leading, ?_, ?_, e11.rest, fun h => e11.unbroken h.2, e11.last⟩
      · simp only [leafStep, hl, if_true, d1, Option.bind_some]
        exact e1
      · rw [show leafToks (l :: ls) = leafToks ls by simp [leafToks, hl]]
        exact e5
      · rw [e6]; simp [leafTexts, hl]
      · rw [e8]
        have : leafComments (l :: ls) = (l.start, l.stop) :: leafComments ls := by
          simp [leafComments, hl]
        rw [this]
        simp
      · rintro l' r h hc
        cases h
        rw [hl] at hc; cases hc
      · intro hcs
        refine e11.comments fun c hc => ?_
        rcases List.mem_append.1 hc with hc | hc
        · exact hcs c hc
        · rw [List.mem_singleton.1 hc]; exact tiled_endsLine h7
    · have hl : l.isComment = false := by simpa using hl
      obtain ⟨T1, L1, m1, ts, d1, d2, d3, _⟩ := gap_derive hG (b' := b) (.inl rfl) hc h1
        (Nat.le_trans (Nat.le_of_lt h2) h3) h4
        (fun h _ => h5 h)
      rw [hl] at h7
      obtain ⟨T', L', m', q, R, hd, tl, p, e1, e2, e3, e4, ⟨ee, e5⟩, e6, e7, e8, e9, e10, e11⟩ :=
        ih true false l.stop l.stop l.stop [] [] [] (tv ++ (T1 ++ L1)) h7
          (gap_start text true l.stop) (by simp)
      have hstart : ∀ x ∈ T' ++ L' ++ R, l.stop ≤ x.start := by
        intro x hx
        have q1 := chain_le e3.trailing
        have q2 := chain_le e3.leading
        rw [List.mem_append, List.mem_append] at hx
        rcases hx with (hx | hx) | hx
        · exact (chain_start e3.trailing x hx).1
        · have := (chain_start e3.leading x hx).1; omega
        · have := e4 x hx; omega
      refine ⟨T1, L1, m1, l.start, T' ++ L' ++ R,
        ⟨l.kind, L1.map (pieceOf text), between text l.start l.stop, T'.map (pieceOf text)⟩, hd :: tl,
        p, ?_, ?_, ?_, ?_, ⟨ee, ?_⟩, ?_, ?_, ?_, ⟨?_, ?_, ?_⟩, ?_, rfl, ?_, ?_, ?_, ?_,
        fun t ht => e11.last t (by rwa [List.getLast?_cons_cons] at ht)⟩
      · simp only [leafStep, hl, Bool.false_eq_true, if_false, tokenStep,
          slice_some h1 (Nat.le_trans (Nat.le_of_lt h2) h3), Option.bind_eq_bind, Option.bind_some, d1]
        have : tv ++ (T ++ L) ++ ts = tv ++ (T1 ++ L1) := by rw [List.append_assoc, d2]
        rw [this]
        simpa using e1
      · rw [e2]; simp only [List.append_assoc]
      · rw [d3.comments]; exact d3
      · intro x hx
        have := hstart x hx; omega
      · have ht : leafToks (l :: ls) = (l.kind, l.stop) :: leafToks ls := by simp [leafToks, hl]
        have he1 := eat_chain text false (T' ++ L' ++ R) d3.leading (by
          intro t ht
          have := hstart t (List.mem_of_head? ht)
          rintro ⟨_, h⟩; omega)
        have he2 := eat_chain text true (L' ++ R) e3.trailing (by
          intro t ht
          rintro ⟨hs1, hs2⟩
          cases hL : L' with
          | nil =>
            rw [hL, List.nil_append] at ht
            have := e4 t (List.mem_of_head? ht)
            have := chain_le e3.leading
            omega
          | cons u L'' =>
            rw [hL] at ht
            simp at ht
            subst ht
            have := chain_side e3.leading u (by rw [hL]; simp)
            rw [this] at hs1; cases hs1)
        rw [ht, List.cons_append, fillToks, buildToken, he1]
        simp only [Option.bind_eq_bind, slice_some (Nat.le_of_lt h2) h3, Option.bind_some,
          List.append_assoc, he2, e5]
      · have : leafTexts text (l :: ls) = (l.kind, between text l.start l.stop) :: leafTexts text ls := by
          simp [leafTexts, hl]
        rw [this, List.cons_append, List.map_cons, e6]
      · rw [List.map_cons, List.flatten_cons, Token.full, chain_text text d3.trailing]
        simp only
        rw [chain_text text d3.leading, List.append_assoc, List.append_assoc, e7, ← List.append_assoc,
          between_append text (chain_le d3.trailing) (chain_le d3.leading),
          between_append text (Nat.le_of_lt h2) h3, between_append text _ (by omega)]
        exact Nat.le_trans (chain_le d3.trailing) (chain_le d3.leading)
      · have hlc : leafComments (l :: ls) = leafComments ls := by simp [leafComments, hl]
        rw [hlc, List.map_append, List.map_cons, List.flatten_cons]
        have e8' := e8
        rw [List.nil_append] at e8'
        rw [← e8']
        simp only [tokenComments, pieceComments, List.filter_append, List.map_append,
          List.append_assoc]
        rw [← List.append_assoc]
        congr 1
        have := pieceComments_of text T1
        have h' := pieceComments_of text L1
        simp only [pieceComments] at this h'
        rw [this, h', ← List.map_append, ← commentsOf_append, d3.comments]
      · intro x hx
        rcases List.mem_append.mp hx with hx | hx <;> obtain ⟨t, ht, rfl⟩ := List.mem_map.mp hx
        · exact sound_piece (d3.sound t (by simp [ht]))
        · exact sound_piece (e3.sound t (by simp [ht]))
      · intro x hx
        obtain ⟨t, ht, rfl⟩ := List.mem_map.mp hx
        exact e3.noNewline t ht
      · intro hb
        exact ownLine_of (d3.newLine (by simpa using hb))
      · intro t ht
        rcases List.mem_cons.mp ht with rfl | ht
        · exact e9
        · exact e10 t ht
      · rintro l' r h _
        cases h; rfl
      · intro hcs
        have hall : ∀ c ∈ commentsOf (T1 ++ L1), EndsLine text c.2 := by rw [d3.comments]; exact hcs
        obtain ⟨g1, g2⟩ := e11.comments (by simp)
        refine ⟨hall, ?_, ?_, g2⟩
        · have := chain_commentsEnd d3.leading fun c hc => hall c (by
            rw [commentsOf_append]; exact List.mem_append_right _ hc)
          simp only
          rw [e11.rest, chain_text text e3.trailing, List.append_assoc,
            between_drop text (chain_le e3.trailing), between_drop text (Nat.le_of_lt h2)]
          exact this
        · rw [e11.rest]
          exact chain_commentsEnd e3.trailing fun c hc => g1 c (by
            rw [commentsOf_append]; exact List.mem_append_left _ hc)
      · rw [List.map_cons, List.flatten_cons, e11.rest, Token.full]
        simp only
        rw [chain_text text d3.leading, chain_text text e3.trailing]
        simp only [List.append_assoc]
        rw [between_drop text (chain_le e3.trailing), between_drop text (Nat.le_of_lt h2),
          between_drop text (chain_le d3.leading)]
      · intro hj
        refine ⟨fun hk => ?_, e11.unbroken hj.2⟩
        obtain ⟨l', r, rfl, hl', hst⟩ := hj.1 hl hk
        have hq := e11.next l' r rfl hl'
        have g1 := chain_le e3.trailing
        have g2 := chain_le e3.leading
        have hT := chain_empty e3.trailing (by omega)
        have hL := chain_empty e3.leading (by omega)
        refine ⟨by rw [hT]; rfl, hd, tl, rfl, by rw [e11.leading, hL]; rfl, ?_⟩
        rintro rfl
        have := congrArg List.length e6
        simp [leafTexts, hl'] at this

end Verif.Parser
