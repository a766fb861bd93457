import Verif.Lemmas.LineEnding

/-!
# The byte-level and the character-level view of normalisation coincide
-/

namespace Verif.LineEnding

/-- UTF-8 encoding of a text. -/
def encode (t : List Char) : List UInt8 := t.flatMap String.utf8EncodeChar

theorem byte_ne (n m : Nat) (h1 : 128 ≤ n) (h2 : n < 256) (hm : m < 128) :
    UInt8.ofNat n ≠ UInt8.ofNat m := by
  intro h
  have := congrArg UInt8.toNat h
  simp [UInt8.toNat_ofNat'] at this
  omega

/-- No character other than the ASCII character `m` itself has the byte `m` in its encoding. -/
theorem notMem_utf8EncodeChar (c : Char) (m : Nat) (hm : m < 128) (hc : c.val.toNat ≠ m) :
    UInt8.ofNat m ∉ String.utf8EncodeChar c := by
  unfold String.utf8EncodeChar
  simp only
  split
  · rename_i h
    simp only [List.mem_singleton]
    intro h'
    have := congrArg UInt8.toNat h'
    simp only [UInt8.toNat_ofNat'] at this
    omega
  · split
    · simp only [List.mem_cons, List.not_mem_nil, or_false, not_or]
      exact ⟨(byte_ne _ _ (by omega) (by omega) hm).symm, (byte_ne _ _ (by omega) (by omega) hm).symm⟩
    · split
      · simp only [List.mem_cons, List.not_mem_nil, or_false, not_or]
        exact ⟨(byte_ne _ _ (by omega) (by omega) hm).symm,
          (byte_ne _ _ (by omega) (by omega) hm).symm, (byte_ne _ _ (by omega) (by omega) hm).symm⟩
      · simp only [List.mem_cons, List.not_mem_nil, or_false, not_or]
        exact ⟨(byte_ne _ _ (by omega) (by omega) hm).symm,
          (byte_ne _ _ (by omega) (by omega) hm).symm, (byte_ne _ _ (by omega) (by omega) hm).symm,
          (byte_ne _ _ (by omega) (by omega) hm).symm⟩

theorem utf8EncodeChar_ne_nil (c : Char) : String.utf8EncodeChar c ≠ [] := by
  unfold String.utf8EncodeChar; simp only; (repeat' split) <;> simp

theorem char_eq_of_toNat (c d : Char) (h : c.val.toNat = d.val.toNat) : c = d := by
  apply Char.ext; exact UInt32.toNat_inj.mp h

theorem cr_notMem (c : Char) (h : c ≠ '\r') : (13 : UInt8) ∉ String.utf8EncodeChar c :=
  notMem_utf8EncodeChar c 13 (by omega) (fun e => h (char_eq_of_toNat c '\r' e))

theorem lf_notMem (c : Char) (h : c ≠ '\n') : (10 : UInt8) ∉ String.utf8EncodeChar c :=
  notMem_utf8EncodeChar c 10 (by omega) (fun e => h (char_eq_of_toNat c '\n' e))

theorem replaceCrlf_append {α} [DecidableEq α] (cr lf : α) (bs r : List α) (h : cr ∉ bs) :
    replaceCrlf cr lf (bs ++ r) = bs ++ replaceCrlf cr lf r := by
  induction bs with
  | nil => rfl
  | cons b bs ih =>
    simp only [List.mem_cons, not_or] at h
    have hb : b ≠ cr := fun e => h.1 e.symm
    cases hx : bs ++ r with
    | nil =>
      simp at hx
      simp [hx.1, hx.2, replaceCrlf]
    | cons c cs =>
      have := ih h.2
      rw [hx] at this
      rw [List.cons_append, hx]
      simp [replaceCrlf, hb, this]

theorem encode_cons (c : Char) (t : List Char) :
    encode (c :: t) = String.utf8EncodeChar c ++ encode t := rfl

theorem replaceCrlf_cr (l : List UInt8) (h : ∀ t, l ≠ 10 :: t) :
    replaceCrlf (13 : UInt8) 10 (13 :: l) = 13 :: replaceCrlf 13 10 l := by
  cases l with
  | nil => rfl
  | cons b l =>
    have hb : b ≠ 10 := fun e => h l (by rw [e])
    simp [replaceCrlf, hb]

theorem replaceCrlf_encode (t : List Char) :
    replaceCrlf 13 10 (encode t) = encode (replaceCrlf '\r' '\n' t) := by
  fun_induction replaceCrlf '\r' '\n' t with
  | case1 => rfl
  | case2 a =>
    simp only [encode, List.flatMap_cons, List.flatMap_nil, List.append_nil]
    by_cases ha : a = '\r'
    · subst ha; decide
    · have := replaceCrlf_append 13 10 _ [] (cr_notMem a ha)
      simpa [replaceCrlf] using this
  | case3 a b rest hab ih =>
    obtain ⟨rfl, rfl⟩ := hab
    have e1 : String.utf8EncodeChar '\r' = [13] := by decide
    have e2 : String.utf8EncodeChar '\n' = [10] := by decide
    simp only [encode_cons, e1, e2]
    simpa [replaceCrlf] using ih
  | case4 a b rest hab ih =>
    rw [encode_cons, encode_cons (t := replaceCrlf _ _ _), ← ih]
    by_cases ha : a = '\r'
    · subst ha
      have e1 : String.utf8EncodeChar '\r' = [13] := by decide
      rw [e1]
      refine replaceCrlf_cr _ ?_
      intro t ht
      rw [encode_cons] at ht
      have hb : b ≠ '\n' := fun e => hab ⟨rfl, e⟩
      have := lf_notMem b hb
      cases hx : String.utf8EncodeChar b with
      | nil => exact utf8EncodeChar_ne_nil b hx
      | cons c cs =>
        rw [hx] at ht this
        simp at ht
        exact this (by simp [ht.1])
    · exact replaceCrlf_append 13 10 _ _ (cr_notMem a ha)

end Verif.LineEnding
