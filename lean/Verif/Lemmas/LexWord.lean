import Verif.Lemmas.LexTidy

/-!
# The spelling of tokens
-/

namespace Verif.Format
open Verif.Syntax

/-! ## States of the scanner -/

/-- Kinds of tokens that are complete. -/
def doneKinds : List Kind := [.rIntegerLiteral, .rComplexLiteral, .stringOpen, .ident, .special, .rBrack2]

theorem step_shape {s s' : Scan} {b : Byte} (h : s.step b = some s') :
    s' ≠ .bracket ∧ (∀ k, s' = .done k → k ∈ doneKinds) ∧
      (∀ t, s' = .symbol t → ∃ t', s = .symbol t' ∧ t = t' ++ [b]) := by
  have hsf : ∀ s', suffix b = some s' → s' ≠ .bracket ∧ (∀ k, s' = .done k → k ∈ doneKinds) ∧
      (∀ t, s' ≠ .symbol t) := by
    intro s' hk'
    unfold suffix at hk'
    repeat' split at hk'
    all_goals first | (cases hk'; simp [doneKinds]; done) | cases hk'
  cases s <;> simp only [Scan.step] at h <;> repeat' split at h
  all_goals first
    | (cases h; done)
    | (have h := Option.some.inj h; subst h; simp [doneKinds]; done)
    | (have h := hsf _ h; exact ⟨h.1, h.2.1, fun t ht => absurd ht (h.2.2 t)⟩)
    | (have h := Option.some.inj h; subst h; split <;> first | (simp [doneKinds]; done) | (split <;> simp [doneKinds]))

theorem start_shape {b : Byte} {s' : Scan} (h : start false b = some s') :
    s' ≠ .bracket ∧ (∀ k, s' = .done k → k ∈ doneKinds ∨ k = .rBrack ∧ b = 93) ∧
      (∀ t, s' = .symbol t → t = [b]) := by
  unfold start at h
  repeat' split at h
  all_goals first
    | (cases h; done)
    | (rename_i h0; have h := Option.some.inj h; subst h; simp [doneKinds, h0]; done)
    | (have h := Option.some.inj h; subst h; simp [doneKinds]; done)
    | (have h := Option.some.inj h; subst h; split <;> simp [doneKinds]; done)
    | (rename_i h0 h1; cases h1; done)
    | (rename_i h0 h1; cases h; exact ⟨(fun h => by cases h), (fun k hk => by cases hk; exact .inr ⟨rfl, h0⟩), (fun t ht => by cases ht)⟩)

theorem run_shape : ∀ (bs : List Byte) (s s' : Scan), s.run bs = some s' →
    (s ≠ .bracket → s' ≠ .bracket) ∧ (∀ k, s' = .done k → k ∈ doneKinds ∨ (bs = [] ∧ s = s')) ∧
      (∀ t, s' = .symbol t → ∃ t', s = .symbol t' ∧ t = t' ++ bs)
  | [], s, s', h => by
    cases h
    exact ⟨id, fun k hk => .inr ⟨rfl, rfl⟩, fun t ht => ⟨t, ht, by simp⟩⟩
  | b :: bs, s, s', h => by
    rw [Scan.run] at h
    cases hb : s.step b with
    | none => rw [hb] at h; cases h
    | some s1 =>
      rw [hb, Option.bind_some] at h
      obtain ⟨h1, h2, h3⟩ := run_shape bs s1 s' h
      obtain ⟨g1, g2, g3⟩ := step_shape hb
      refine ⟨fun _ => h1 g1, ?_, ?_⟩
      · intro k hk
        rcases h2 k hk with h | ⟨-, h⟩
        · exact .inl h
        · exact .inl (g2 k (h.trans hk))
      · intro t ht
        obtain ⟨t', ht', rfl⟩ := h3 t ht
        obtain ⟨t'', ht'', rfl⟩ := g3 t' ht'
        exact ⟨t'', ht'', by simp⟩

theorem finish_shape {text : List Byte} {s : Scan} (h : finish false text = some s) :
    s ≠ .bracket ∧ (∀ k, s = .done k → k ∈ doneKinds ∨ k = .rBrack ∧ text = [93]) ∧
      (∀ t, s = .symbol t → t = text) := by
  cases text with
  | nil => cases h
  | cons b bs =>
    rw [finish] at h
    cases hb : start false b with
    | none => rw [hb] at h; cases h
    | some s0 =>
      rw [hb, Option.bind_some] at h
      have h' := h
      clear h
      obtain ⟨h1, h2, h3⟩ := run_shape bs s0 s h'
      obtain ⟨g1, g2, g3⟩ := start_shape hb
      refine ⟨h1 g1, ?_, ?_⟩
      · intro k hk
        rcases h2 k hk with h | ⟨rfl, h⟩
        · exact .inl h
        · rcases g2 k (h.trans hk) with h | ⟨h, rfl⟩
          · exact .inl h
          · exact .inr ⟨h, rfl⟩
      · intro t ht
        obtain ⟨t', ht', rfl⟩ := h3 t ht
        rw [g3 t' ht']
        rfl

/-! ## Words -/

/-- A token of R outside of strings. -/
def Word (t : Tok) : Prop := ∃ s, finish false t.text = some s ∧ s.kind t.text = some t.kind

/-- Kinds of tokens that are not operators. -/
def wordKinds : List Kind :=
  [.ident, .dots, .dotdoti, .rIntegerLiteral, .rDoubleLiteral, .rComplexLiteral, .nextKw, .breakKw,
   .trueKw, .falseKw, .nullKw, .infKw, .nanKw, .naLogicalKw, .naIntegerKw, .naDoubleKw, .naComplexKw,
   .naCharacterKw, .functionKw, .forKw, .inKw, .whileKw, .repeatKw, .ifKw, .elseKw, .stringOpen,
   .special, .rBrack, .rBrack2]

theorem wordKind_mem (w : List Byte) : wordKind w ∈ wordKinds := by
  unfold wordKind
  split
  · rename_i p hp
    have hm := List.mem_of_find?_eq_some hp
    have : ∀ p ∈ reserved, p.2 ∈ wordKinds := by decide
    exact this p hm
  · split
    · split <;> decide
    · decide

/-- A token is an operator, or it ends before white space, brackets and some operators. -/
theorem Word.cases {t : Tok} (h : Word t) :
    ∃ s, finish false t.text = some s ∧
      ((s = .symbol t.text ∧ (t.text, t.kind) ∈ symbols) ∨
        ((∀ x, s ≠ .symbol x) ∧ t.kind ∈ wordKinds ∧ (t.kind = .rBrack → t.text = [93]) ∧
          ∀ b ∈ ([40, 91, 41, 93, 44, 125, 63, 94, 42, 58, 36, 64, 9, 10, 11, 12, 13, 32, 35, 59] :
            List Byte), s.step b = none)) := by
  obtain ⟨s, h1, h2⟩ := h
  obtain ⟨g1, g2, g3⟩ := finish_shape h1
  refine ⟨s, h1, ?_⟩
  have hw := wordKind_mem t.text
  have hwb : wordKind t.text ≠ .rBrack := by
    unfold wordKind
    split
    · rename_i p hp
      have hm := List.mem_of_find?_eq_some hp
      have : ∀ p ∈ reserved, p.2 ≠ .rBrack := by decide
      exact this p hm
    · split
      · split <;> decide
      · decide
  cases s with
  | symbol x =>
    have hx := g3 x rfl
    subst hx
    refine .inl ⟨rfl, ?_⟩
    simp only [Scan.kind, Option.map_eq_some_iff] at h2
    obtain ⟨p, hp, hk⟩ := h2
    have hm := List.mem_of_find?_eq_some hp
    have he := List.find?_some hp
    simp only [beq_iff_eq] at he
    rw [← he, ← hk]
    exact hm
  | done k =>
    simp only [Scan.kind, Option.some.injEq] at h2
    subst h2
    refine .inr ⟨(fun x h => by cases h), ?_, ?_, fun b hb => rfl⟩
    · rcases g2 _ rfl with h | ⟨h, _⟩
      · have : ∀ k ∈ doneKinds, k ∈ wordKinds := by decide
        exact this _ h
      · rw [h]; decide
    · intro hk
      rcases g2 _ rfl with h | ⟨_, h⟩
      · rw [hk] at h
        exact absurd h (by decide)
      · exact h
  | bracket => exact absurd rfl g1
  | name | rawName | dot =>
    simp only [Scan.kind, Option.some.injEq] at h2
    refine .inr ⟨(fun x h => by cases h), h2 ▸ hw, (fun h => absurd (h2.trans h) hwb), ?_⟩
    decide
  | zero | whole | fraction | exponent | hex | hexFraction =>
    simp only [Scan.kind, Option.some.injEq] at h2
    refine .inr ⟨(fun x h => by cases h), (by rw [← h2]; decide), (fun h => by rw [← h2] at h; cases h), ?_⟩
    decide
  | mark | sign | hex0 | raw | tick | tickEscape | percent =>
    simp only [Scan.kind] at h2
    cases h2

/-! ## Where tokens end -/

/-- Tokens whose end depends on the context, not on what follows. -/
def exempt (k : Kind) : Bool := k == .rBrack || k == .rBrack2 || k == .stringClose

/-- `t` ends before the byte `b`. -/
def StopsAt (t : Tok) (b : Byte) : Prop :=
  exempt t.kind = true ∨ ∀ s, finish false t.text = some s → s.step b = none

/-- Bytes that do not continue an operator. -/
def gap (b : Byte) : Bool := !([60, 61, 62, 124, 38, 42, 58, 91] : List Byte).contains b

/-- Bytes that may come directly after an expression. -/
def cont (b : Byte) : Bool := ([40, 91, 41, 93, 44, 125, 63, 94, 42, 58, 36, 64] : List Byte).contains b

/-- White space, `;` and `#`. -/
def white (b : Byte) : Bool := ([9, 10, 11, 12, 13, 32, 35, 59] : List Byte).contains b

/-- The tokens that end an expression. -/
def endKinds : List Kind := .rParen :: .rCurly :: .stringClose :: wordKinds

/-- Operators. -/
def symbolKinds : List Kind := symbols.map (·.2)

theorem symbols_next : ∀ p ∈ symbols, ∀ q ∈ symbols, p.1.isPrefixOf q.1 = true →
    ∀ b ∈ q.1[p.1.length]?, white b = false ∧
      (gap b = true → p.1 = [60] ∨ p.1 = [60, 60]) ∧
      (cont b = true → p.2 ≠ .rParen ∧ p.2 ≠ .rCurly) := by
  decide +kernel

theorem symbolStart_next {t : List Byte} {k : Kind} (h : (t, k) ∈ symbols) {b : Byte}
    (hb : symbolStart (t ++ [b]) = true) :
    white b = false ∧ (gap b = true → t = [60] ∨ t = [60, 60]) ∧
      (cont b = true → k ≠ .rParen ∧ k ≠ .rCurly) := by
  unfold symbolStart at hb
  obtain ⟨q, hq, hb⟩ := List.any_eq_true.1 hb
  obtain ⟨r, hr⟩ := List.isPrefixOf_iff_prefix.1 hb
  refine symbols_next _ h q hq ?_ b ?_
  · rw [List.isPrefixOf_iff_prefix]
    exact ⟨b :: r, by rw [← hr]; simp⟩
  · rw [← hr]
    simp

theorem symbol_step {t : List Byte} {b : Byte} (h : symbolStart (t ++ [b]) = false) :
    (Scan.symbol t).step b = none := by
  simp [Scan.step, h]

/-- Tokens end before white space. -/
theorem Word.white {t : Tok} (h : Word t) {b : Byte} (hb : white b = true) {s : Scan}
    (hs : finish false t.text = some s) : s.step b = none := by
  obtain ⟨s', h1, h2⟩ := h.cases
  rw [hs] at h1
  cases h1
  rcases h2 with ⟨rfl, h2⟩ | ⟨_, _, _, h2⟩
  · refine symbol_step ?_
    cases hb' : symbolStart (t.text ++ [b]) with
    | false => rfl
    | true => rw [(symbolStart_next h2 hb').1] at hb; cases hb
  · refine h2 b ?_
    unfold Format.white at hb
    have hb := List.elem_iff.1 hb
    revert hb
    simp only [List.mem_cons]
    grind

/-- The last token of an expression ends before what may follow. -/
theorem Word.ends {t : Tok} (h : Word t) (hk : t.kind ∈ endKinds) {b : Byte} (hb : cont b = true) :
    StopsAt t b := by
  refine .inr ?_
  intro s hs
  obtain ⟨s', h1, h2⟩ := h.cases
  rw [hs] at h1
  cases h1
  rcases h2 with ⟨rfl, h2⟩ | ⟨_, _, _, h2⟩
  · refine symbol_step ?_
    cases hb' : symbolStart (t.text ++ [b]) with
    | false => rfl
    | true =>
      have h3 := (symbolStart_next h2 hb').2.2 hb
      have : ∀ p ∈ symbols, p.2 ∈ endKinds → p.2 = .rParen ∨ p.2 = .rCurly := by decide
      rcases this _ h2 hk with h | h
      · exact absurd h h3.1
      · exact absurd h h3.2
  · refine h2 b ?_
    unfold cont at hb
    have hb := List.elem_iff.1 hb
    revert hb
    simp only [List.mem_cons]
    grind

/-- Operators that end before anything that does not continue an operator. -/
def openKinds : List Kind :=
  [.lParen, .lCurly, .lBrack, .lBrack2, .comma, .wat, .tilde, .plus, .minus, .bang, .exponentiate,
   .exponentiate2, .colon, .colon2, .colon3, .dollar, .atSign, .backslash, .equal, .rParen, .rCurly]

/-- Operators end before the start of an operand. -/
theorem Word.opens {t : Tok} (h : Word t) (hk : t.kind ∈ openKinds) {b : Byte} (hb : gap b = true) :
    StopsAt t b := by
  refine .inr ?_
  intro s hs
  obtain ⟨s', h1, h2⟩ := h.cases
  rw [hs] at h1
  cases h1
  rcases h2 with ⟨rfl, h2⟩ | ⟨_, h2, _, _⟩
  · refine symbol_step ?_
    cases hb' : symbolStart (t.text ++ [b]) with
    | false => rfl
    | true =>
      have h3 := (symbolStart_next h2 hb').2.1 hb
      have : ∀ p ∈ symbols, p.2 ∈ openKinds → p.1 ≠ [60] ∧ p.1 ≠ [60, 60] := by decide
      rcases h3 with h | h
      · exact absurd h (this _ h2 hk).1
      · exact absurd h (this _ h2 hk).2
  · have : ∀ k ∈ wordKinds, k ∉ openKinds := by decide
    exact absurd hk (this _ h2)

/-- The text of an operator. -/
theorem Word.text {t : Tok} (h : Word t) {x : List Byte} (hx : (x, t.kind) ∈ symbols) : t.text = x := by
  obtain ⟨s, -, ⟨-, h2⟩ | ⟨-, h2, -, -⟩⟩ := h.cases
  · have : ∀ p ∈ symbols, ∀ q ∈ symbols, p.2 = q.2 → p.1 = q.1 := by decide +kernel
    exact this _ h2 _ hx rfl
  · have : ∀ p ∈ symbols, p.2 ∉ wordKinds := by decide
    exact absurd h2 (this _ hx)

/-! ## First bytes -/

/-- All bytes that the text may start with satisfy `p`. -/
def FirstByte (p : Byte → Bool) (t : Tok) : Prop := ∀ b r, t.text = b :: r → p b = true

theorem symbol_first {b : Byte} (h : gap b = false) : start false b = some (.symbol [b]) := by
  unfold gap at h
  have h : ([60, 61, 62, 124, 38, 42, 58, 91] : List Byte).contains b = true := by
    rw [Bool.not_eq_false'] at h
    exact h
  have h := List.elem_iff.1 h
  have : ∀ b ∈ ([60, 61, 62, 124, 38, 42, 58, 91] : List Byte), start false b = some (.symbol [b]) := by
    decide
  exact this b h

/-- Tokens that do not start like the continuation of an operator. -/
def gapKinds : List Kind :=
  [.lParen, .lCurly, .comma, .rParen, .rCurly, .wat, .tilde, .plus, .minus, .bang, .backslash] ++ wordKinds

theorem Word.gap {t : Tok} (h : Word t) (hk : t.kind ∈ gapKinds) : FirstByte gap t := by
  intro b r ht
  cases hg : Format.gap b with
  | true => rfl
  | false =>
    exfalso
    have h0 := symbol_first hg
    obtain ⟨s, h1, h2⟩ := h.cases
    rw [ht, finish, h0, Option.bind_some] at h1
    have hs : ∀ (r : List Byte) (x : List Byte) (s : Scan), (Scan.symbol x).run r = some s →
        ∃ y, s = .symbol y := by
      intro r
      induction r with
      | nil =>
        intro x s h
        cases h
        exact ⟨x, rfl⟩
      | cons c r ih =>
        intro x s h
        rw [Scan.run] at h
        cases hb : (Scan.symbol x).step c with
        | none => rw [hb] at h; cases h
        | some s1 =>
          rw [hb, Option.bind_some] at h
          simp only [Scan.step] at hb
          split at hb
          · cases hb
            exact ih _ _ h
          · cases hb
    obtain ⟨y, rfl⟩ := hs r _ s h1
    rcases h2 with ⟨h2, h3⟩ | ⟨h2, -, -, -⟩
    · have : ∀ p ∈ symbols, p.2 ∈ gapKinds → ∀ b ∈ p.1.head?, Format.gap b = true := by decide
      have := this _ h3 hk b (by rw [ht]; rfl)
      rw [hg] at this
      cases this
    · exact h2 y rfl

/-- Tokens that may come directly after an expression. -/
def contKinds : List Kind :=
  [.lParen, .lBrack, .lBrack2, .rParen, .comma, .rCurly, .wat, .exponentiate, .exponentiate2, .colon,
   .colon2, .colon3, .dollar, .atSign]

theorem Word.cont {t : Tok} (h : Word t) (hk : t.kind ∈ contKinds) : FirstByte cont t := by
  intro b r ht
  have hm : ∃ x, (x, t.kind) ∈ symbols := by
    have : ∀ k ∈ contKinds, ∃ p ∈ symbols, p.2 = k := by decide
    obtain ⟨p, hp, he⟩ := this _ hk
    exact ⟨p.1, by rw [← he]; exact hp⟩
  obtain ⟨x, hx⟩ := hm
  have hx' := h.text hx
  have : ∀ p ∈ symbols, p.2 ∈ contKinds → ∀ b ∈ p.1.head?, Format.cont b = true := by decide
  exact this _ hx hk b (by rw [← hx', ht]; rfl)

/-! ## Tokens in any context -/

/-- A word or `]]`. -/
def Lexeme (t : Tok) : Prop := Word t ∨ t.kind = .rBrack2 ∧ t.text = [93, 93]

theorem start_two {b : Byte} (h : b ≠ 93) (two : Bool) : start two b = start false b := by
  unfold start
  simp only [h, if_false]

theorem finish_two {text : List Byte} (h : ∀ b r, text = b :: r → b ≠ 93) (two : Bool) :
    finish two text = finish false text := by
  cases text with
  | nil => rfl
  | cons b r =>
    rw [finish, finish, start_two (h b r rfl)]

theorem Fine.lexeme {st : List Tok} {t : Tok} (hst : openString st = none) (h : Fine st t) : Lexeme t := by
  unfold Fine at h
  rw [hst] at h
  obtain ⟨s, h1, h2⟩ := h
  cases ht : t.text with
  | nil => rw [ht] at h1; cases h1
  | cons b r =>
    by_cases hb : b = 93
    · cases htwo : openTwo st with
      | false =>
        rw [htwo] at h1
        exact .inl ⟨s, h1, h2⟩
      | true =>
        rw [htwo, ht, hb] at h1
        have h0 : start true 93 = some .bracket := by decide
        rw [finish, h0, Option.bind_some] at h1
        cases r with
        | nil =>
          cases h1
          refine .inl ⟨.done .rBrack, ?_, ?_⟩
          · rw [ht, hb]
            decide
          · simpa [Scan.kind] using h2
        | cons c r =>
          rw [Scan.run] at h1
          by_cases hc : c = 93
          · rw [hc] at h1
            have h0 : Scan.bracket.step 93 = some (.done .rBrack2) := by decide
            rw [h0, Option.bind_some] at h1
            cases r with
            | nil =>
              cases h1
              refine .inr ⟨?_, ?_⟩
              · simp only [Scan.kind, Option.some.injEq] at h2
                exact h2.symm
              · rw [ht, hb, hc]
            | cons d r =>
              simp only [Scan.run, Scan.step, Option.bind_none] at h1
              cases h1
          · simp only [Scan.step, if_neg hc, Option.bind_none] at h1
            cases h1
    · rw [finish_two (fun c r' hc => by rw [ht] at hc; cases hc; exact hb)] at h1
      exact .inl ⟨s, h1, h2⟩

theorem Word.bracket {t : Tok} (h : Word t) {r : List Byte} (ht : t.text = 93 :: r) :
    t.kind = .rBrack := by
  obtain ⟨s, h1, h2⟩ := h
  rw [ht] at h1
  have h0 : start false 93 = some (.done .rBrack) := by decide
  rw [finish, h0, Option.bind_some] at h1
  cases r with
  | nil =>
    cases h1
    simpa [Scan.kind] using h2.symm
  | cons c r =>
    simp only [Scan.run, Scan.step, Option.bind_none] at h1
    cases h1

theorem Word.fine {st : List Tok} {t : Tok} (hst : openString st = none) (h : Word t)
    (hb : t.kind = .rBrack → openTwo st = false) : Fine st t := by
  unfold Fine
  rw [hst]
  simp only
  obtain ⟨s, h1, h2⟩ := h
  by_cases hk : t.kind = .rBrack
  · rw [hb hk]
    exact ⟨s, h1, h2⟩
  · rw [finish_two]
    · exact ⟨s, h1, h2⟩
    · rintro b r ht rfl
      exact hk (Word.bracket ⟨s, h1, h2⟩ ht)

theorem Fine.bracket2 {st : List Tok} {t : Tok} (hst : openString st = none) (h2 : openTwo st = true)
    (hk : t.kind = .rBrack2) (ht : t.text = [93, 93]) : Fine st t := by
  unfold Fine
  rw [hst, h2, ht, hk]
  exact ⟨.done .rBrack2, by decide, by decide⟩

end Verif.Format
