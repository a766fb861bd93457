import Verif.Lemmas.Codec

/-!
# C79: messages arrive as they were sent
-/

namespace Verif.Codec

variable {T : Type} {j : Json T}

/-! ## The decoder does not depend on anything but what has arrived -/

theorem reads_unique {c d d' : Codec} {xs xs' : List T} (h : Reads j c xs d) (h' : Reads j c xs' d') :
    xs' = xs ∧ d' = d := by
  induction h generalizing xs' d' with
  | stop h =>
    cases h' with
    | stop h' => rw [h] at h'; cases h'; exact ⟨rfl, rfl⟩
    | item h' _ => rw [h] at h'; cases h'
  | item h _ ih =>
    cases h' with
    | stop h' => rw [h] at h'; cases h'
    | item h' hr' =>
      rw [h] at h'
      cases h'
      obtain ⟨rfl, rfl⟩ := ih hr'
      exact ⟨rfl, rfl⟩

theorem feeds_unique {c d d' : Codec} {ps : List (List Byte)} {xss xss' : List (List T)} (h : Feeds j c ps xss d)
    (h' : Feeds j c ps xss' d') : xss' = xss ∧ d' = d := by
  induction h generalizing xss' d' with
  | nil => cases h'; exact ⟨rfl, rfl⟩
  | cons h _ ih =>
    cases h' with
    | cons h1 h2 =>
      obtain ⟨rfl, rfl⟩ := reads_unique h h1
      obtain ⟨rfl, rfl⟩ := ih h2
      exact ⟨rfl, rfl⟩

/-! ## Streams of messages -/

/-- `q` has arrived of the messages `fs`, none of which has been returned. -/
def Holds (fs : List (Frame T)) (c : Codec) (q : List Byte) : Prop :=
  (c.len = none ∧ c.buf = q) ∨
    ∃ f fs', fs = f :: fs' ∧ c.len = some f.body.length ∧ q = block f.headers ++ c.buf

theorem stream_cons (f : Frame T) (fs : List (Frame T)) : stream (f :: fs) = block f.headers ++ (f.body ++ stream fs) := by
  simp [stream, Frame.bytes]

theorem body_more {f : Frame T} {b : List Byte} (h : b.length < f.body.length) :
    decodeBody j f.body.length b = (.none, ⟨some f.body.length, b⟩) := by
  rw [decodeBody, if_pos h]

theorem body_done {f : Frame T} (hf : f.Good j) (b : List Byte) :
    decodeBody j f.body.length (f.body ++ b) = (.item f.item, ⟨none, b⟩) := by
  rw [decodeBody, if_neg (by simp), List.take_left, if_neg (by simp [hf.valid]), if_neg (by simp [hf.nonempty]),
    hf.parses, List.drop_left]

theorem header_done {f : Frame T} (hf : f.Good j) (b : List Byte) :
    decode j ⟨none, block f.headers ++ b⟩ = decodeBody j f.body.length b := by
  unfold decode
  simp only
  rw [parse_block _ _ hf.two hf.plain]
  simp only [hf.length]

theorem header_more {f : Frame T} (hf : f.Good j) {p : List Byte} (hp : p <+: block f.headers) (hne : p ≠ block f.headers) :
    decode j ⟨none, p⟩ = (.none, ⟨none, p⟩) := by
  unfold decode
  simp only
  rw [parse_prefix _ _ hf.two hf.plain p hp hne]

/-- What the decoder returns of what has arrived. -/
theorem drain (fs : List (Frame T)) : (∀ f ∈ fs, f.Good j) → ∀ c q, Holds fs c q → q <+: stream fs →
    ∃ k c' q', Reads j c (arrived fs q.length) c' ∧ Holds (fs.drop k) c' q' ∧ q = stream (fs.take k) ++ q' ∧
      (∀ n, arrived fs (q.length + n) = arrived fs q.length ++ arrived (fs.drop k) (q'.length + n)) := by
  induction fs with
  | nil =>
    intro _ c q hh hq
    have hq0 : q = [] := by simpa [stream] using hq
    subst hq0
    rcases hh with ⟨h1, h2⟩ | ⟨f, fs', h, _⟩
    · obtain ⟨len, buf⟩ := c
      cases h1
      cases h2
      exact ⟨0, ⟨none, []⟩, [], .stop rfl, .inl ⟨rfl, rfl⟩, rfl, fun n => rfl⟩
    · cases h
  | cons f fs ih =>
    intro hg c q hh hq
    have hf := hg f (by simp)
    have ih := ih fun f hm => hg f (by simp [hm])
    rw [stream_cons] at hq
    have hlen : f.bytes.length = (block f.headers).length + f.body.length := by simp [Frame.bytes]
    -- nothing is returned
    have wait : ∀ c', decode j c = (.none, c') → Holds (f :: fs) c' q → q.length < f.bytes.length →
        ∃ k c' q', Reads j c (arrived (f :: fs) q.length) c' ∧ Holds ((f :: fs).drop k) c' q' ∧
          q = stream ((f :: fs).take k) ++ q' ∧
          (∀ n, arrived (f :: fs) (q.length + n) = arrived (f :: fs) q.length ++ arrived ((f :: fs).drop k) (q'.length + n)) := by
      intro c' hd hh' hl
      have e : arrived (f :: fs) q.length = [] := by rw [arrived, if_neg (by omega)]
      refine ⟨0, c', q, by rw [e]; exact .stop hd, hh', rfl, fun n => ?_⟩
      rw [e]
      rfl
    -- all of the headers have arrived
    have body : ∀ b, q = block f.headers ++ b → decode j c = decodeBody j f.body.length b →
        ∃ k c' q', Reads j c (arrived (f :: fs) q.length) c' ∧ Holds ((f :: fs).drop k) c' q' ∧
          q = stream ((f :: fs).take k) ++ q' ∧
          (∀ n, arrived (f :: fs) (q.length + n) = arrived (f :: fs) q.length ++ arrived ((f :: fs).drop k) (q'.length + n)) := by
      intro b hb hd
      rw [hb] at hq
      rw [List.prefix_append_right_inj] at hq
      by_cases hl : b.length < f.body.length
      · refine wait ⟨some f.body.length, b⟩ (by rw [hd, body_more hl]) (.inr ⟨f, fs, rfl, rfl, hb⟩) ?_
        rw [hb, hlen, List.length_append]
        omega
      · rcases prefix_append_cases hq with h | ⟨r, rfl, hr⟩
        · have := h.length_le
          have : b = f.body := h.eq_of_length (by omega)
          subst this
          obtain ⟨k, c', q', h1, h2, h3, h4⟩ := ih ⟨none, []⟩ [] (.inl ⟨rfl, rfl⟩) List.nil_prefix
          have e : q.length = f.bytes.length + ([] : List Byte).length := by rw [hb, hlen]; simp
          have hd' : decode j c = (.item f.item, ⟨none, []⟩) := by
            rw [hd]
            have := body_done hf (b := [])
            rwa [List.append_nil] at this
          refine ⟨k + 1, c', q', ?_, h2, ?_, fun n => ?_⟩
          · rw [e, arrived, if_pos (by omega), Nat.add_sub_cancel_left]
            exact .item hd' h1
          · rw [hb, List.take_succ_cons, stream_cons, List.append_assoc, List.append_assoc, ← h3, List.append_nil]
          · rw [e, arrived, if_pos (by omega), arrived, if_pos (by omega), Nat.add_sub_cancel_left,
              Nat.add_assoc, Nat.add_sub_cancel_left, h4]
            rfl
        · obtain ⟨k, c', q', h1, h2, h3, h4⟩ := ih ⟨none, r⟩ r (.inl ⟨rfl, rfl⟩) hr
          have e : q.length = f.bytes.length + r.length := by rw [hb, hlen]; simp; omega
          refine ⟨k + 1, c', q', ?_, h2, ?_, fun n => ?_⟩
          · rw [e, arrived, if_pos (by omega), Nat.add_sub_cancel_left]
            exact .item (by rw [hd, body_done hf]) h1
          · rw [hb, List.take_succ_cons, stream_cons, List.append_assoc, List.append_assoc, ← h3]
          · rw [e, arrived, if_pos (by omega), arrived, if_pos (by omega), Nat.add_sub_cancel_left,
              Nat.add_assoc, Nat.add_sub_cancel_left, h4]
            rfl
    rcases hh with ⟨h1, h2⟩ | ⟨g, gs, h, h1, h2⟩
    · obtain ⟨len, buf⟩ := c
      cases h1
      cases h2
      rcases prefix_append_cases hq with h | ⟨b, hb, -⟩
      · by_cases he : buf = block f.headers
        · refine body [] (by simpa using he) ?_
          have := header_done hf (b := [])
          rw [List.append_nil] at this
          rw [he, this]
        · refine wait ⟨none, buf⟩ (header_more hf h he) (.inl ⟨rfl, rfl⟩) ?_
          have h3 : buf.length ≤ (block f.headers).length := h.length_le
          have : buf.length ≠ (block f.headers).length := fun e => he (h.eq_of_length e)
          rw [hlen]
          show buf.length < _
          omega
      · dsimp only at hb
        refine body b hb ?_
        rw [hb, header_done hf]
    · cases h
      obtain ⟨len, buf⟩ := c
      cases h1
      exact body buf h2 rfl

theorem feeds (ps : List (List Byte)) : ∀ (fs : List (Frame T)) (c : Codec) (q : List Byte), (∀ f ∈ fs, f.Good j) →
    Holds fs c q → arrived fs q.length = [] → q ++ ps.flatten <+: stream fs →
    ∃ xss c', Feeds j c ps xss c' ∧ xss.length = ps.length ∧
      ∀ k, (xss.take k).flatten = arrived fs (q.length + (ps.take k).flatten.length) := by
  induction ps with
  | nil =>
    intro fs c q _ _ h0 _
    exact ⟨[], c, .nil c, rfl, fun k => by simp [h0]⟩
  | cons p ps ih =>
    intro fs c q hg hh h0 hq
    have hh' : Holds fs ⟨c.len, c.buf ++ p⟩ (q ++ p) := by
      rcases hh with ⟨h1, h2⟩ | ⟨f, fs', h1, h2, h3⟩
      · exact .inl ⟨h1, by rw [← h2]⟩
      · exact .inr ⟨f, fs', h1, h2, by rw [h3, List.append_assoc]⟩
    have hq' : q ++ p <+: stream fs := by
      rw [List.flatten_cons, ← List.append_assoc] at hq
      exact (List.prefix_append _ _).trans hq
    obtain ⟨k, c', q', h1, h2, h3, h4⟩ := drain fs hg _ _ hh' hq'
    have hz : arrived (fs.drop k) q'.length = [] := by
      have := h4 0
      rw [Nat.add_zero, Nat.add_zero] at this
      exact List.append_right_eq_self.1 this.symm
    have hrest : q' ++ ps.flatten <+: stream (fs.drop k) := by
      rw [List.flatten_cons, ← List.append_assoc, h3, List.append_assoc] at hq
      have : stream fs = stream (fs.take k) ++ stream (fs.drop k) := by
        rw [stream, stream, stream, ← List.flatMap_append, List.take_append_drop]
      rw [this, List.prefix_append_right_inj] at hq
      exact hq
    obtain ⟨xss, d, g1, g2, g3⟩ := ih (fs.drop k) c' q' (fun f hf => hg f (List.mem_of_mem_drop hf)) h2 hz hrest
    refine ⟨_ :: xss, d, .cons h1 g1, by rw [List.length_cons, g2, List.length_cons], fun i => ?_⟩
    cases i with
    | zero => simp [h0]
    | succ i =>
      rw [List.take_succ_cons, List.flatten_cons, g3, List.take_succ_cons, List.flatten_cons,
        List.length_append (as := p), ← Nat.add_assoc, ← h4, List.length_append]

/-- C79: whatever messages are sent, and however their bytes are cut into pieces on the way: after every piece exactly those
messages have been returned of which all bytes have arrived, in their order, and there are no errors. -/
theorem C79_arrive (fs : List (Frame T)) (hg : ∀ f ∈ fs, f.Good j) (ps : List (List Byte)) (hp : ps.flatten <+: stream fs) :
    (∃ xss c, Feeds j {} ps xss c) ∧ ∀ xss c, Feeds j {} ps xss c →
      xss.length = ps.length ∧ ∀ k, (xss.take k).flatten = arrived fs (ps.take k).flatten.length := by
  have h0 : arrived fs ([] : List Byte).length = [] := by
    cases fs with
    | nil => rfl
    | cons f fs => rw [arrived, if_neg (by simp [Frame.bytes, block])]
  obtain ⟨xss, c, h1, h2, h3⟩ := feeds ps fs {} [] hg (.inl ⟨rfl, rfl⟩) h0 hp
  refine ⟨⟨xss, c, h1⟩, fun xss' c' h => ?_⟩
  obtain ⟨rfl, rfl⟩ := feeds_unique h1 h
  refine ⟨h2, fun k => ?_⟩
  rw [h3]
  simp

/-! ## What the encoder writes -/

/-- A message as `encode` writes it. -/
def encodedFrame (j : Json T) (x : T) : Frame T := ⟨[(lengthName, decimal (j.ser x).length)], j.ser x, x⟩

theorem encoded_bytes (x : T) : (encodedFrame j x).bytes = encode j x := by
  simp [encodedFrame, Frame.bytes, block, encode]

theorem encoded_good (hj : j.Sound) (x : T) (hl : (j.ser x).length < 2 ^ 64) : (encodedFrame j x).Good j where
  plain := by
    intro h hm
    rw [encodedFrame, List.mem_singleton] at hm
    subst hm
    exact plain_decimal _
  told := .alone
  utf8 := by
    intro h hm
    rw [encodedFrame, List.mem_singleton] at hm
    subst hm
    exact hj.ascii _ fun b hb => UInt8.lt_of_le_of_lt (decimalAux_digit _ _ b hb).2 (by decide)
  fits := hl
  valid := hj.valid x
  nonempty := hj.nonempty x
  parses := hj.again x

theorem encoded_stream (xs : List T) : stream (xs.map (encodedFrame j)) = xs.flatMap (encode j) := by
  rw [stream, List.flatMap_map]
  congr 1
  funext x
  exact encoded_bytes x

theorem arrived_all (fs : List (Frame T)) : arrived fs (stream fs).length = fs.map Frame.item := by
  induction fs with
  | nil => rfl
  | cons f fs ih =>
    have e : (stream (f :: fs)).length = f.bytes.length + (stream fs).length := by
      simp [stream]
    rw [e, arrived, if_pos (by omega), Nat.add_sub_cancel_left, ih, List.map_cons]

/-- C79: what one side encodes, the other side decodes: the same messages in the same order, however the bytes are cut into
pieces. -/
theorem C79_roundtrip (hj : j.Sound) (xs : List T) (hl : ∀ x ∈ xs, (j.ser x).length < 2 ^ 64) (ps : List (List Byte))
    (hp : ps.flatten = xs.flatMap (encode j)) :
    (∃ xss c, Feeds j {} ps xss c) ∧ ∀ xss c, Feeds j {} ps xss c → xss.flatten = xs := by
  have hg : ∀ f ∈ xs.map (encodedFrame j), f.Good j := by
    intro f hf
    obtain ⟨x, hx, rfl⟩ := List.mem_map.1 hf
    exact encoded_good hj x (hl x hx)
  obtain ⟨h1, h2⟩ := C79_arrive (xs.map (encodedFrame j)) hg ps (by rw [encoded_stream, hp]; exact List.prefix_refl _)
  refine ⟨h1, fun xss c h => ?_⟩
  obtain ⟨h3, h4⟩ := h2 xss c h
  have := h4 ps.length
  rw [← h3, List.take_length, h3, List.take_length, hp, ← encoded_stream, arrived_all] at this
  rw [this, List.map_map]
  simp [encodedFrame, Function.comp_def]

/-- C79: an invalid length is reported once; the messages after it are not lost. -/
theorem C79_recovers (v : List Byte) (hv : PlainHeader (lengthName, v)) (hu : j.valid v = true)
    (hbad : NoLength v) (xs : List T) :
    decode j ⟨none, block [(lengthName, v)] ++ xs.flatMap (encode j)⟩ =
      (.error .contentLength, ⟨none, xs.flatMap (encode j)⟩) := by
  have hfind : (find lengthName (xs.flatMap (encode j))).getD 0 = 0 := by
    cases xs with
    | nil => rfl
    | cons x xs => rfl
  unfold decode
  simp only
  rw [parse_block _ 2 (by simp) (by simpa using hv)]
  simp only [decodeHeaders, if_pos, hu, noLength_parse hbad]
  rw [if_neg (by decide), hfind, List.drop_zero]

/-- C79: a message of which the type is not UTF-8 is reported once and left out; the messages after it are not lost, if
`Content-Length` does not occur in it. -/
theorem C79_other_type (hj : j.Sound) (v body : List Byte) (hv : PlainHeader (typeName, v)) (hu : j.valid v = true)
    (hbad : OtherType v) (hl : body.length < 2 ^ 64) (x : T) (xs : List T)
    (hb : ∀ k < body.length, ¬lengthName <+: (body ++ (x :: xs).flatMap (encode j)).drop k) :
    decode j ⟨none, block [(lengthName, decimal body.length), (typeName, v)] ++ body ++ (x :: xs).flatMap (encode j)⟩ =
      (.error .contentType, ⟨none, (x :: xs).flatMap (encode j)⟩) := by
  have hfind : find lengthName (body ++ (x :: xs).flatMap (encode j)) = some body.length := by
    refine find_skip _ _ _ hb ?_
    rw [List.flatMap_cons, encode]
    simp only [List.append_assoc]
    exact List.prefix_append _ _
  have hd : j.valid (decimal body.length) = true :=
    hj.ascii _ fun b hb => UInt8.lt_of_le_of_lt (decimalAux_digit _ _ b hb).2 (by decide)
  unfold decode
  simp only
  rw [List.append_assoc, parse_block _ 2 (by simp) (by
    intro h hm
    simp only [List.mem_cons, List.not_mem_nil, or_false] at hm
    rcases hm with rfl | rfl
    · exact plain_decimal _
    · exact hv)]
  simp only [decodeHeaders, if_pos, hd, parse_decimal _ hl, hu, otherType_bad hbad]
  rw [if_neg (by decide), if_neg (by decide)]
  simp only [reduceCtorEq, if_false]
  rw [hfind, Option.getD_some, List.drop_left]

theorem decimalAux_length (fuel : Nat) : ∀ n, 0 < n → n < fuel →
    (decimalAux fuel n).length = numberOfDigitsAux fuel n := by
  induction fuel with
  | zero => intro n _ h; cases h
  | succ fuel ih =>
    intro n h0 h
    unfold decimalAux numberOfDigitsAux
    rw [if_pos h0]
    split
    · rename_i h10
      have : n / 10 = 0 := by omega
      rw [this]
      cases fuel <;> simp [numberOfDigitsAux]
    · rw [List.length_append, ih (n / 10) (by omega) (by omega)]
      rfl

/-- C79: the space that is reserved for a message is exactly what it takes. -/
theorem C79_reserved (x : T) (h : j.ser x ≠ []) : (encode j x).length = reserved (j.ser x) := by
  have h0 : 0 < (j.ser x).length := List.length_pos_iff.2 h
  have := decimalAux_length ((j.ser x).length + 1) (j.ser x).length h0 (by omega)
  simp only [encode, reserved, decimal, numberOfDigits, List.length_append, this]
  simp [lengthName]
  omega

/-! ## What goes wrong -/

/-- C79 fails for messages that are not UTF-8: every call returns the same error, whatever arrives later. -/
theorem C79_stuck_utf8 (n : Nat) (src more : List Byte) (hn : n ≤ src.length) (hv : j.valid (src.take n) = false) :
    decode j ⟨some n, src ++ more⟩ = (.error .utf8, ⟨some n, src ++ more⟩) := by
  show decodeBody j n (src ++ more) = _
  rw [decodeBody, if_neg (by simp; omega), List.take_append_of_le_length hn, hv]
  rfl

/-- C79 fails for headers without a length before anything with `Content-Length` has arrived: every call returns the same
error. -/
theorem C79_stuck_missing (h : List Byte × List Byte) (hh : PlainHeader h) (h1 : h.1 ≠ lengthName) (h2 : h.1 ≠ typeName)
    (rest : List Byte) (hf : find lengthName (block [h] ++ rest) = none) :
    decode j ⟨none, block [h] ++ rest⟩ = (.error .missing, ⟨none, block [h] ++ rest⟩) := by
  unfold decode
  simp only
  rw [parse_block _ 2 (by simp) (by simpa using hh)]
  obtain ⟨name, value⟩ := h
  simp only [decodeHeaders, if_neg h1, if_neg h2, if_true, hf]
  rfl

/-- C79 fails after an empty message: the messages that have arrived behind it are not returned, unless more arrives. -/
theorem C79_empty_delays (hj : j.Sound) (xs : List T) :
    Reads j ⟨none, block [(lengthName, decimal 0)] ++ xs.flatMap (encode j)⟩ [] ⟨none, xs.flatMap (encode j)⟩ := by
  refine .stop ?_
  have hp : PlainHeader (lengthName, decimal 0) := by
    refine ⟨by simp [lengthName], lengthName_word, by decide, ?_, ?_⟩ <;>
    · intro b hb
      have : b = 48 := by
        have e : decimal 0 = [48] := by decide
        rw [e] at hb
        cases hb
        rfl
      subst this
      unfold isBlank
      decide
  have h0 : parseUsize (decimal 0) = some 0 := parse_decimal 0 (by decide)
  unfold decode
  simp only
  rw [parse_block _ 2 (by simp) (by simpa using hp)]
  simp only [decodeHeaders, if_pos, hj.ascii (decimal 0) (by decide), h0]
  rw [decodeBody, if_neg (by simp), List.take_zero, hj.ascii [] nofun]
  rfl

/-! ## Examples -/

/-- Messages that are `t` or `f`. -/
def flags : Json Bool := ⟨fun b => if b then [116] else [102], fun bs => if bs = [116] then some true else
  if bs = [102] then some false else none, fun bs => bs.all (· < 128)⟩

theorem flags_sound : flags.Sound where
  again := by decide
  valid := by decide
  nonempty := by decide
  ascii := fun bs h => by simpa [flags] using h

/-- Two messages, cut inside of the first header and of the second body. -/
example : ([[67, 111, 110], [116, 101, 110, 116, 45, 76, 101, 110, 103, 116, 104, 58, 32, 49, 13], [10, 13, 10, 116, 67, 111,
    110, 116, 101, 110, 116, 45, 76, 101, 110, 103, 116, 104, 58, 32, 49, 13, 10, 13, 10], [102]] : List (List Byte)).flatten =
    [true, false].flatMap (encode flags) := by decide

/-- A length that is not a number. -/
example : PlainHeader (lengthName, [120]) ∧ flags.valid [120] = true ∧ NoLength [120] :=
  ⟨⟨by simp [lengthName], lengthName_word, by decide,
    by intro b hb; cases hb; unfold isBlank; decide, by intro b hb; cases hb; unfold isBlank; decide⟩, by decide,
    .inr (.inr (.inl ⟨120, by decide, by decide, by decide⟩))⟩

/-- `a; charset=x`, and a body without `Content-Length`. -/
example : OtherType [97, 59, 32, 99, 104, 97, 114, 115, 101, 116, 61, 120] ∧ OtherType [97] ∧
    ∀ k < [(120 : Byte)].length, ¬lengthName <+: ([120] ++ [true].flatMap (encode flags)).drop k :=
  ⟨.inr ⟨[97], [120], by decide, by decide, by decide, by decide, by decide, rfl⟩, .inl (by decide), by decide⟩

/-- A message with the byte 255. -/
example : (1 : Nat) ≤ [(255 : Byte), 116].length ∧ flags.valid ([255, 116].take 1) = false := by decide

/-- `a: b`: a header without a length. -/
example : PlainHeader ([97], [98]) ∧ [97] ≠ lengthName ∧ [97] ≠ typeName ∧ find lengthName (block [([97], [98])]) = none :=
  ⟨⟨by simp, by unfold isWordByte; decide, by decide, by intro b hb; cases hb; unfold isBlank; decide,
    by intro b hb; cases hb; unfold isBlank; decide⟩, by decide, by decide, by decide⟩

/-- Two headers, the second one with the type of the message: `Content-Type: a; charset=utf8`. -/
example : Frame.Good flags ⟨[(lengthName, [49]), (typeName, [97, 59, 32, 99, 104, 97, 114, 115, 101, 116, 61, 117, 116, 102, 56])],
    [116], true⟩ where
  plain := by
    intro h hm
    simp only [List.mem_cons, List.not_mem_nil, or_false] at hm
    rcases hm with rfl | rfl
    · exact ⟨by simp [lengthName], lengthName_word, by decide,
        by intro b hb; cases hb; unfold isBlank; decide, by intro b hb; cases hb; unfold isBlank; decide⟩
    · exact ⟨by simp [typeName], typeName_word, by decide,
        by intro b hb; cases hb; unfold isBlank; decide, by intro b hb; cases hb; unfold isBlank; decide⟩
  told := .after _ ⟨by decide, fun _ => ⟨[97], by decide, .inr rfl⟩⟩
  utf8 := by decide
  fits := by decide
  valid := by decide
  nonempty := by decide
  parses := by decide

/-- C79 fails for clients that write the names of headers in lower case (`content-length: 1`), as HTTP allows it. -/
theorem C79_lower_case : (decode flags ⟨none, [99, 111, 110, 116, 101, 110, 116, 45, 108, 101, 110, 103, 116, 104, 58, 32, 49,
    13, 10, 13, 10, 116]⟩).1 = .error .missing := by decide

end Verif.Codec
