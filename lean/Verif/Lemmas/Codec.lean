import Verif.Spec.Codec

/-!
# The codec: headers
-/

namespace Verif.Codec

theorem prefix_append_cases {α : Type} {p a b : List α} (h : p <+: a ++ b) : p <+: a ∨ ∃ q, p = a ++ q ∧ q <+: b := by
  obtain ⟨t, ht⟩ := h
  rcases List.append_eq_append_iff.1 ht with ⟨u, h1, -⟩ | ⟨u, h1, h2⟩
  · exact .inl ⟨u, h1.symm⟩
  · exact .inr ⟨u, h1, t, h2.symm⟩

theorem nameByte_ne {b : Byte} (h : nameByte b = true) : b ≠ 58 ∧ b ≠ 13 ∧ b ≠ 10 :=
  ⟨fun e => by subst e; revert h; decide, fun e => by subst e; revert h; decide, fun e => by subst e; revert h; decide⟩

theorem valueByte_ne {b : Byte} (h : valueByte b = true) : b ≠ 13 ∧ b ≠ 10 :=
  ⟨fun e => by subst e; revert h; decide, fun e => by subst e; revert h; decide⟩

theorem PlainHeader.name {h : List Byte × List Byte} (hh : PlainHeader h) : ∀ b ∈ h.1, nameByte b = true := by
  intro b hb
  rcases hh.word b hb with h | h | h | rfl
  · simp [nameByte, h]
  · simp [nameByte, h]
  · simp [nameByte, h]
  · decide

theorem PlainHeader.value {h : List Byte × List Byte} (hh : PlainHeader h) : ∀ b ∈ h.2, valueByte b = true := by
  intro b hb
  rcases hh.print b hb with rfl | h
  · decide
  · simp [valueByte, h]

theorem parseName_done (n r : List Byte) (h : ∀ b ∈ n, nameByte b = true) : parseName (n ++ 58 :: r) = .done n r := by
  induction n with
  | nil => rfl
  | cons b n ih =>
    have hb := h b (by simp)
    rw [List.cons_append, parseName, if_neg (by simpa using (nameByte_ne hb).1), if_pos hb,
      ih fun b hm => h b (by simp [hm])]

theorem parseName_more (p : List Byte) (h : ∀ b ∈ p, nameByte b = true) : parseName p = .more := by
  induction p with
  | nil => rfl
  | cons b n ih =>
    have hb := h b (by simp)
    rw [parseName, if_neg (by simpa using (nameByte_ne hb).1), if_pos hb, ih fun b hm => h b (by simp [hm])]

theorem parseLine_done (v r : List Byte) (h : ∀ b ∈ v, valueByte b = true) :
    parseLine (v ++ 13 :: 10 :: r) = .done v r := by
  induction v with
  | nil => rfl
  | cons b v ih =>
    have hb := h b (by simp)
    have ih := ih fun b hm => h b (by simp [hm])
    cases v with
    | nil => rw [List.cons_append, List.nil_append, parseLine, if_pos hb]; rfl
    | cons c v => rw [List.cons_append, List.cons_append, parseLine, if_pos hb, ← List.cons_append, ih]

theorem parseLine_more (p : List Byte) (h : ∀ b ∈ p, valueByte b = true) : parseLine p = .more := by
  induction p with
  | nil => rfl
  | cons b v ih =>
    have hb := h b (by simp)
    have ih := ih fun b hm => h b (by simp [hm])
    cases v with
    | nil => rw [parseLine, if_pos (by rw [hb]; rfl)]
    | cons c v => rw [parseLine, if_pos hb, ih]

theorem parseLine_cr (p : List Byte) (h : ∀ b ∈ p, valueByte b = true) : parseLine (p ++ [13]) = .more := by
  induction p with
  | nil => rfl
  | cons b v ih =>
    have hb := h b (by simp)
    have ih := ih fun b hm => h b (by simp [hm])
    cases v with
    | nil => rw [List.cons_append, List.nil_append, parseLine, if_pos hb]; rfl
    | cons c v => rw [List.cons_append, List.cons_append, parseLine, if_pos hb, ← List.cons_append, ih]

theorem skipBlanks_self {v : List Byte} (h : ∀ b, v.head? = some b → ¬isBlank b) : skipBlanks v = v := by
  cases v with
  | nil => rfl
  | cons b v =>
    have := h b rfl
    unfold isBlank at this
    rw [skipBlanks, if_neg (by simpa using this)]

theorem trimEnd_self {v : List Byte} (h : ∀ b, v.getLast? = some b → ¬isBlank b) : trimEnd v = v := by
  unfold trimEnd
  rw [List.getLast?_eq_head?_reverse] at h
  have : v.reverse.dropWhile (fun b => b == 32 || b == 9) = v.reverse := by
    cases hr : v.reverse with
    | nil => rfl
    | cons b u =>
      rw [hr] at h
      have := h b rfl
      unfold isBlank at this
      rw [List.dropWhile_cons_of_neg (by simpa using this)]
  rw [this, List.reverse_reverse]

theorem parseHeaders_name {n : Nat} {b : Byte} {bs : List Byte} (hb : nameByte b = true) :
    parseHeaders n (b :: bs) =
      match parseName bs with
      | .more => .more
      | .bad => .bad
      | .done name bs =>
        match parseLine (skipBlanks bs) with
        | .more => .more
        | .bad => .bad
        | .done value bs =>
          match n with
          | 0 => .bad
          | n + 1 =>
            match parseHeaders n bs with
            | .more => .more
            | .bad => .bad
            | .done hs bs => .done ((b :: name, trimEnd value) :: hs) bs := by
  have h := nameByte_ne hb
  rw [parseHeaders, if_pos hb]
  · rfl
  · intro e _; exact h.2.1 e
  · intro c bs' e; exact absurd e h.2.1
  · intro e; exact h.2.2 e

theorem head_line {v : List Byte} (h : ∀ b, v.head? = some b → ¬isBlank b) (r : List Byte) :
    ∀ b, (v ++ 13 :: r).head? = some b → ¬isBlank b := by
  cases v with
  | nil => intro b hb; cases hb; unfold isBlank; decide
  | cons c v => exact h

/-- Complete headers are read. -/
theorem parse_block (hs : List (List Byte × List Byte)) : ∀ n, hs.length ≤ n → (∀ h ∈ hs, PlainHeader h) → ∀ rest,
    parseHeaders n (block hs ++ rest) = .done hs rest := by
  induction hs with
  | nil => intro n _ _ rest; cases n <;> rfl
  | cons h hs ih =>
    intro n hn hp rest
    obtain ⟨name, value⟩ := h
    have h0 := hp _ (List.mem_cons_self ..)
    cases n with
    | zero => cases hn
    | succ n =>
      have ih := ih n (by simpa using hn) (fun h hm => hp h (by simp [hm])) rest
      cases name with
      | nil => exact absurd rfl h0.named
      | cons b name =>
        have e : block ((b :: name, value) :: hs) ++ rest =
            b :: (name ++ 58 :: 32 :: (value ++ 13 :: 10 :: (block hs ++ rest))) := by
          simp [block]
        have es : skipBlanks (32 :: (value ++ 13 :: 10 :: (block hs ++ rest))) = value ++ 13 :: 10 :: (block hs ++ rest) := by
          rw [skipBlanks, if_pos (by decide), skipBlanks_self (head_line h0.first _)]
        rw [e, parseHeaders_name (h0.name b (by simp)), parseName_done _ _ fun c hc => h0.name c (by simp [hc])]
        dsimp only
        rw [es, parseLine_done _ _ h0.value]
        dsimp only
        rw [ih, trimEnd_self h0.last]

/-- Headers of which something is missing are not read yet. -/
theorem parse_prefix (hs : List (List Byte × List Byte)) : ∀ n, hs.length ≤ n → (∀ h ∈ hs, PlainHeader h) → ∀ p,
    p <+: block hs → p ≠ block hs → parseHeaders n p = .more := by
  induction hs with
  | nil =>
    intro n _ _ p hp hne
    have : p = [] ∨ p = [13] := by
      have hp : p <+: [13] ++ [10] := hp
      rcases prefix_append_cases hp with h | ⟨q, rfl, h⟩
      · cases p with
        | nil => exact .inl rfl
        | cons b p =>
          rw [List.cons_prefix_cons, List.prefix_nil] at h
          exact .inr (by rw [h.1, h.2])
      · cases q with
        | nil => exact .inr rfl
        | cons b q =>
          rw [List.cons_prefix_cons, List.prefix_nil] at h
          rw [h.1, h.2] at hne
          exact absurd rfl hne
    rcases this with rfl | rfl <;> cases n <;> rfl
  | cons h hs ih =>
    intro n hn hp p hpre hne
    obtain ⟨name, value⟩ := h
    have h0 := hp _ (List.mem_cons_self ..)
    cases n with
    | zero => cases hn
    | succ n =>
      have ih := ih n (by simpa using hn) (fun h hm => hp h (by simp [hm]))
      cases name with
      | nil => exact absurd rfl h0.named
      | cons b name =>
        have e : block ((b :: name, value) :: hs) = b :: (name ++ ([58, 32] ++ (value ++ ([13, 10] ++ block hs)))) := by
          simp [block]
        rw [e] at hpre hne
        cases p with
        | nil => rfl
        | cons c p =>
          rw [List.cons_prefix_cons] at hpre
          obtain ⟨rfl, hpre⟩ := hpre
          rw [parseHeaders_name (h0.name c (by simp))]
          have hname : ∀ c ∈ name, nameByte c = true := fun c hc => h0.name c (by simp [hc])
          rcases prefix_append_cases hpre with h1 | ⟨q, rfl, h1⟩
          · rw [parseName_more p fun c hc => hname c (h1.subset hc)]
          rcases prefix_append_cases h1 with h2 | ⟨q, rfl, h2⟩
          · cases q with
            | nil => rw [List.append_nil, parseName_more _ hname]
            | cons d q =>
              rw [List.cons_prefix_cons] at h2
              obtain ⟨rfl, h2⟩ := h2
              rw [parseName_done _ _ hname]
              cases q with
              | nil => rfl
              | cons d q =>
                rw [List.cons_prefix_cons, List.prefix_nil] at h2
                obtain ⟨rfl, rfl⟩ := h2
                rfl
          rw [show name ++ ([58, 32] ++ q) = name ++ 58 :: (32 :: q) from rfl, parseName_done _ _ hname]
          dsimp only
          have hsk : skipBlanks (32 :: q) = skipBlanks q := by rw [skipBlanks, if_pos (by decide)]
          rw [hsk]
          rcases prefix_append_cases h2 with h3 | ⟨r, rfl, h3⟩
          · have hq : ∀ b, q.head? = some b → ¬isBlank b := by
              intro b hb
              refine h0.first b ?_
              cases q with
              | nil => cases hb
              | cons d q =>
                obtain ⟨t, ht⟩ := h3
                rw [← ht]
                exact hb
            rw [skipBlanks_self hq, parseLine_more q fun c hc => h0.value c (h3.subset hc)]
          rcases prefix_append_cases h3 with h4 | ⟨s, rfl, h4⟩
          · cases r with
            | nil => rw [List.append_nil, skipBlanks_self h0.first, parseLine_more _ h0.value]
            | cons d r =>
              rw [List.cons_prefix_cons] at h4
              obtain ⟨rfl, h4⟩ := h4
              rw [skipBlanks_self (head_line h0.first _)]
              cases r with
              | nil => rw [parseLine_cr _ h0.value]
              | cons d r =>
                rw [List.cons_prefix_cons, List.prefix_nil] at h4
                obtain ⟨rfl, rfl⟩ := h4
                rw [parseLine_done _ _ h0.value]
                dsimp only
                rw [ih [] (List.nil_prefix) (by simp [block])]
          · rw [show value ++ ([13, 10] ++ s) = value ++ 13 :: 10 :: s from rfl, skipBlanks_self (head_line h0.first _),
              parseLine_done _ _ h0.value]
            dsimp only
            rw [ih s h4 (fun e => hne (by rw [e]))]

/-! ## Numbers -/

theorem decimalAux_digit (fuel : Nat) : ∀ n, ∀ b ∈ decimalAux fuel n, 48 ≤ b ∧ b ≤ 57 := by
  have hd : ∀ k, k < 10 → (48 : Byte) ≤ UInt8.ofNat (48 + k) ∧ UInt8.ofNat (48 + k) ≤ 57 := by decide
  induction fuel with
  | zero => intro n b hb; cases hb
  | succ fuel ih =>
    intro n b hb
    unfold decimalAux at hb
    split at hb
    · rename_i h
      rw [List.mem_singleton] at hb
      subst hb
      exact hd n h
    · rw [List.mem_append, List.mem_singleton] at hb
      rcases hb with hb | rfl
      · exact ih _ b hb
      · exact hd _ (Nat.mod_lt _ (by decide))

theorem digits_append (a b : List Byte) : ∀ acc, digits acc (a ++ b) = (digits acc a).bind (digits · b) := by
  induction a with
  | nil => intro acc; rfl
  | cons x a ih =>
    intro acc
    rw [List.cons_append, digits, digits]
    split
    · exact ih _
    · rfl

theorem digits_one (acc k : Nat) (h : k < 10) : digits acc [UInt8.ofNat (48 + k)] = some (10 * acc + k) := by
  have hd : ∀ k, k < 10 → ((48 : Byte) ≤ UInt8.ofNat (48 + k) && UInt8.ofNat (48 + k) ≤ 57) = true ∧
      (UInt8.ofNat (48 + k)).toNat - 48 = k := by decide
  obtain ⟨h1, h2⟩ := hd k h
  rw [digits, if_pos h1, h2, digits]

theorem digits_decimal (fuel : Nat) : ∀ n, n < fuel → digits 0 (decimalAux fuel n) = some n := by
  induction fuel with
  | zero => intro n h; cases h
  | succ fuel ih =>
    intro n h
    unfold decimalAux
    split
    · rename_i h10
      rw [digits_one _ _ h10]
      simp
    · rename_i h10
      rw [digits_append, ih (n / 10) (by omega), Option.bind_some, digits_one _ _ (Nat.mod_lt _ (by decide))]
      congr 1
      omega

theorem decimal_ne (n : Nat) : decimal n ≠ [] := by
  unfold decimal decimalAux
  split <;> simp

theorem parse_decimal (n : Nat) (h : n < 2 ^ 64) : parseUsize (decimal n) = some n := by
  have hd := decimalAux_digit (n + 1) n
  have hne := decimal_ne n
  unfold parseUsize
  have h43 : ¬(decimal n).head? = some 43 := by
    intro h
    have := hd 43 (List.mem_of_mem_head? h)
    revert this
    decide
  simp only [if_neg h43]
  rw [if_neg (by simpa using hne), decimal, digits_decimal _ _ (by omega)]
  simp [Option.filter, h]

theorem lengthName_word : ∀ b ∈ lengthName, isWordByte b := by unfold isWordByte; decide

theorem typeName_word : ∀ b ∈ typeName, isWordByte b := by unfold isWordByte; decide

theorem plain_decimal (n : Nat) : PlainHeader (lengthName, decimal n) := by
  have hd := decimalAux_digit (n + 1) n
  have hb : ∀ b ∈ decimal n, ¬isBlank b := by
    intro b hb h
    have := hd b hb
    rcases h with rfl | rfl <;> revert this <;> decide
  refine ⟨by simp [lengthName], lengthName_word, fun b hb => ?_, fun b h => hb b (List.mem_of_mem_head? h),
    fun b h => hb b (List.mem_of_mem_getLast? h)⟩
  have := hd b hb
  have h32 : (32 : Byte) ≤ b := UInt8.le_trans (by decide) this.1
  have h127 : b ≠ 127 := by
    rintro rfl
    revert this
    decide
  exact .inr ⟨h32, h127⟩

theorem digits_none (bs : List Byte) : ∀ acc, ∀ b ∈ bs, ¬(48 ≤ b ∧ b ≤ 57) → digits acc bs = none := by
  induction bs with
  | nil => intro acc b hb; cases hb
  | cons x bs ih =>
    intro acc b hb h
    rw [digits]
    split
    · rename_i hx
      rcases List.mem_cons.1 hb with rfl | hb
      · simp at hx; exact absurd hx h
      · exact ih _ b hb h
    · rfl

theorem noLength_parse {v : List Byte} (h : NoLength v) : parseUsize v = none := by
  rcases h with rfl | rfl | ⟨b, hb, h43, hd⟩ | ⟨n, hn, rfl⟩
  · rfl
  · rfl
  · have hm : b ∈ if v.head? = some 43 then v.drop 1 else v := by
      split
      · rename_i h
        cases v with
        | nil => cases h
        | cons x v =>
          cases h
          rcases List.mem_cons.1 hb with rfl | hb
          · exact absurd rfl h43
          · exact hb
      · exact hb
    unfold parseUsize
    simp only
    rw [digits_none _ 0 b hm hd]
    simp
  · have hd := decimalAux_digit (n + 1) n
    unfold parseUsize
    have h43 : ¬(decimal n).head? = some 43 := by
      intro h
      have := hd 43 (List.mem_of_mem_head? h)
      revert this
      decide
    simp only [if_neg h43]
    rw [if_neg (by simpa using decimal_ne n), decimal, digits_decimal _ _ (by omega)]
    simp [Option.filter]
    exact hn

/-! ## Types -/

theorem splitSemi_cons (a r : List Byte) (ha : 59 ∉ a) : ∀ acc, splitSemi acc (a ++ 59 :: r) = (acc.reverse ++ a) :: splitSemi [] r := by
  induction a with
  | nil => intro acc; simp [splitSemi]
  | cons x a ih =>
    intro acc
    rw [List.cons_append, splitSemi, if_neg (by simpa using fun h => ha (by simp [h])), ih (fun h => ha (by simp [h]))]
    simp

theorem splitSemi_one (a : List Byte) (ha : 59 ∉ a) : ∀ acc, splitSemi acc a = [acc.reverse ++ a] := by
  induction a with
  | nil => intro acc; simp [splitSemi]
  | cons x a ih =>
    intro acc
    rw [splitSemi, if_neg (by simpa using fun h => ha (by simp [h])), ih (fun h => ha (by simp [h]))]
    simp

theorem harmless_type {v : List Byte} (h : ∃ mime, 59 ∉ mime ∧ (v = mime ++ charsetText ++ [117, 116, 102, 45, 56] ∨
    v = mime ++ charsetText ++ [117, 116, 102, 56])) : typeOk v = true := by
  obtain ⟨m, hm, rfl | rfl⟩ := h <;>
  · unfold typeOk charsetText
    rw [List.append_assoc, List.cons_append, splitSemi_cons _ _ hm, List.drop_succ_cons]
    decide

theorem otherType_bad {v : List Byte} (h : OtherType v) : typeOk v = false := by
  rcases h with h | ⟨m, c, hm, hc, hb, h1, h2, rfl⟩
  · unfold typeOk
    rw [splitSemi_one _ h]
    rfl
  · have hblank : ∀ b ∈ c, (b == 32 || (decide (9 ≤ b) && decide (b ≤ 13))) = false := by
      intro b h
      have := hb b h
      simp only [Bool.or_eq_false_iff, beq_eq_false_iff_ne, Bool.and_eq_false_iff, decide_eq_false_iff_not]
      refine ⟨?_, .inr ?_⟩
      · rintro rfl
        revert this
        decide
      · intro h13
        exact absurd (UInt8.lt_of_lt_of_le this h13) (by decide)
    have ht : trim ([32, 99, 104, 97, 114, 115, 101, 116, 61] ++ c) = [99, 104, 97, 114, 115, 101, 116, 61] ++ c := by
      unfold trim
      simp only
      rw [show ([32, 99, 104, 97, 114, 115, 101, 116, 61] ++ c : List Byte) = 32 :: 99 :: ([104, 97, 114, 115, 101, 116, 61] ++ c) from rfl,
        List.dropWhile_cons_of_pos (by decide), List.dropWhile_cons_of_neg (by decide)]
      rw [show (99 :: ([104, 97, 114, 115, 101, 116, 61] ++ c) : List Byte) = [99, 104, 97, 114, 115, 101, 116, 61] ++ c from rfl,
        List.reverse_append]
      have : (c.reverse ++ ([99, 104, 97, 114, 115, 101, 116, 61] : List Byte).reverse).dropWhile
          (fun b : Byte => b == 32 || (decide (9 ≤ b) && decide (b ≤ 13))) =
          c.reverse ++ ([99, 104, 97, 114, 115, 101, 116, 61] : List Byte).reverse := by
        cases hr : c.reverse with
        | nil => decide
        | cons x r =>
          rw [List.cons_append, List.dropWhile_cons_of_neg]
          rw [hblank x (by rw [← List.mem_reverse, hr]; simp)]
          decide
      rw [this]
      simp
    unfold typeOk charsetText
    rw [List.append_assoc, List.cons_append, splitSemi_cons _ _ hm, splitSemi_one _ (by simpa using hc)]
    simp only [List.drop_succ_cons, List.drop_zero, List.findSome?_cons, List.reverse_nil, List.nil_append, ht]
    simp [stripCharset, List.isPrefixOf, h1, h2]

theorem find_skip (needle a r : List Byte) (h : ∀ k < a.length, ¬needle <+: (a ++ r).drop k) (hr : needle <+: r) :
    find needle (a ++ r) = some a.length := by
  induction a with
  | nil =>
    cases r with
    | nil => simp at hr; simp [find, hr]
    | cons x r => rw [List.nil_append, find, if_pos (List.isPrefixOf_iff_prefix.2 hr)]; rfl
  | cons x a ih =>
    rw [List.cons_append, find, if_neg, ih]
    · rfl
    · intro k hk
      exact h (k + 1) (by simpa using hk)
    · rw [List.isPrefixOf_iff_prefix]
      exact h 0 (by simp)

/-! ## Frames -/

theorem Frame.Good.two {T : Type} {j : Json T} {f : Frame T} (h : f.Good j) : f.headers.length ≤ 2 := by
  have := h.told
  revert this
  generalize f.headers = hs
  intro h
  cases h <;> simp

theorem Frame.Good.length {T : Type} {j : Json T} {f : Frame T} (h : f.Good j) :
    decodeHeaders j.valid none f.headers = .ok f.body.length := by
  have hp := parse_decimal _ h.fits
  have hu := h.utf8
  have ht := h.told
  revert hu ht
  generalize f.headers = hs
  intro hu ht
  have hn : ¬typeName = lengthName := by decide
  have hl : j.valid (decimal f.body.length) = true := by
    cases ht <;> exact hu (lengthName, decimal f.body.length) (by simp)
  cases ht with
  | alone => simp [decodeHeaders, hp, hl]
  | before g hg =>
    obtain ⟨name, v⟩ := g
    have := hu (name, v) (by simp)
    by_cases ht : name = typeName
    · have h2 := harmless_type (hg.2 ht)
      simp only at h2 this
      simp [decodeHeaders, hp, hl, ht, hn, h2, this]
    · have := hg.1
      simp only at this
      simp [decodeHeaders, hp, hl, ht, this]
  | after g hg =>
    obtain ⟨name, v⟩ := g
    have := hu (name, v) (by simp)
    by_cases ht : name = typeName
    · have h2 := harmless_type (hg.2 ht)
      simp only at h2 this
      simp [decodeHeaders, hp, hl, ht, hn, h2, this]
    · have := hg.1
      simp only at this
      simp [decodeHeaders, hp, hl, ht, this]

end Verif.Codec
