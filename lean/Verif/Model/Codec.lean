/-!
# Messages on the wire (`crates/lsp_test/src/tower_lsp/codec.rs`)

The codec of the client that is used to test the server; it is a copy of the codec of tower-lsp, which is what the server
itself reads and writes with. `httparse` (external) is transcribed from its published source as far as its result matters
here; JSON and the test for UTF-8 are parameters (`Json`).
-/

namespace Verif.Codec

/-- A byte. (`u8`; crates/lsp_test/src/tower_lsp/codec.rs:151) -/
abbrev Byte := UInt8

/-! ## httparse -/

/-- Outcome of a parser that may need more input. (`httparse::Status` and errors, external; used in
crates/lsp_test/src/tower_lsp/codec.rs:177-180) -/
inductive Parse (α : Type) where
  | done (x : α) (rest : List Byte)
  | more
  | bad
  deriving DecidableEq, Repr

/-- `is_header_name_token`: letters, digits and some signs. (httparse, external; used in
crates/lsp_test/src/tower_lsp/codec.rs:177) -/
def nameByte (b : Byte) : Bool :=
  (48 ≤ b && b ≤ 57) || (65 ≤ b && b ≤ 90) || (97 ≤ b && b ≤ 122) ||
    [33, 35, 36, 37, 38, 39, 42, 43, 45, 46, 94, 95, 96, 124, 126].contains b

/-- `is_header_value_token`. (httparse, external; used in crates/lsp_test/src/tower_lsp/codec.rs:177) -/
def valueByte (b : Byte) : Bool := b == 9 || (32 ≤ b && b != 127)

/-- The rest of the name of a header, up to the colon. (httparse, external; used in
crates/lsp_test/src/tower_lsp/codec.rs:177) -/
def parseName : List Byte → Parse (List Byte)
  | [] => .more
  | b :: bs =>
    if b == 58 then .done [] bs
    else if nameByte b then
      match parseName bs with
      | .done n r => .done (b :: n) r
      | .more => .more
      | .bad => .bad
    else .bad

/-- White space between the colon and the value. (httparse, external; used in
crates/lsp_test/src/tower_lsp/codec.rs:177) -/
def skipBlanks : List Byte → List Byte
  | [] => []
  | b :: bs => if b == 32 || b == 9 then skipBlanks bs else b :: bs

/-- The value of a header, up to the end of the line. (httparse, external; used in
crates/lsp_test/src/tower_lsp/codec.rs:177) -/
def parseLine : List Byte → Parse (List Byte)
  | [] => .more
  | [b] => if valueByte b || b == 13 then .more else if b == 10 then .done [] [] else .bad
  | b :: c :: bs =>
    if valueByte b then
      match parseLine (c :: bs) with
      | .done v r => .done (b :: v) r
      | .more => .more
      | .bad => .bad
    else if b == 10 then .done [] (c :: bs)
    else if b == 13 && c == 10 then .done [] bs
    else .bad

/-- White space at the end of a value is no part of it. (httparse, external; used in
crates/lsp_test/src/tower_lsp/codec.rs:177) -/
def trimEnd (v : List Byte) : List Byte := (v.reverse.dropWhile fun b => b == 32 || b == 9).reverse

/-- `httparse::parse_headers` with room for `n` headers: names and values, and what comes after the empty line. (httparse,
external; used in crates/lsp_test/src/tower_lsp/codec.rs:175-180) -/
def parseHeaders : Nat → List Byte → Parse (List (List Byte × List Byte))
  | _, [] => .more
  | _, [13] => .more
  | _, 13 :: c :: bs => if c == 10 then .done [] bs else .bad
  | _, 10 :: bs => .done [] bs
  | n, b :: bs =>
    if nameByte b then
      match parseName bs with
      | .more => .more
      | .bad => .bad
      | .done name bs =>
        match parseLine (skipBlanks bs) with
        | .more => .more
        | .bad => .bad
        | .done value bs =>
          match n with
          | 0 => .bad
          | n + 1 =>
            match parseHeaders n bs with
            | .more => .more
            | .bad => .bad
            | .done hs bs => .done ((b :: name, trimEnd value) :: hs) bs
    else .bad

/-! ## Headers -/

/-- `"Content-Length"` (codec.rs:208). -/
def lengthName : List Byte := [67, 111, 110, 116, 101, 110, 116, 45, 76, 101, 110, 103, 116, 104]

/-- `"Content-Type"` (codec.rs:213). -/
def typeName : List Byte := [67, 111, 110, 116, 101, 110, 116, 45, 84, 121, 112, 101]

/-- The errors of the decoder that matter (codec.rs:24-40); those of httparse, JSON, UTF-8 and of numbers carry no details. -/
inductive Error | body | headers | contentType | contentLength | missing | utf8
  deriving DecidableEq, Repr

/-- JSON (`serde_json::to_string`, `from_str`) and `std::str::from_utf8`, all external (codec.rs:122, 157-168). -/
structure Json (T : Type) where
  ser : T → List Byte
  de : List Byte → Option T
  valid : List Byte → Bool

/-- The number with these digits, after `acc`. (`usize::from_str`, external; crates/lsp_test/src/tower_lsp/codec.rs:210) -/
def digits (acc : Nat) : List Byte → Option Nat
  | [] => some acc
  | b :: bs => if 48 ≤ b && b ≤ 57 then digits (10 * acc + (b.toNat - 48)) bs else none

/-- `str::parse::<usize>`: digits, perhaps after a `+`; numbers of 64 bits.
(crates/lsp_test/src/tower_lsp/codec.rs:210) -/
def parseUsize (bs : List Byte) : Option Nat :=
  let ds := if bs.head? = some 43 then bs.drop 1 else bs
  if ds.isEmpty then none else (digits 0 ds).filter (· < 2 ^ 64)

/-- `str::trim` for ASCII. (crates/lsp_test/src/tower_lsp/codec.rs:218) -/
def trim (bs : List Byte) : List Byte :=
  let blank := fun b : Byte => b == 32 || (9 ≤ b && b ≤ 13)
  ((bs.dropWhile blank).reverse.dropWhile blank).reverse

/-- `str::split(';')`. (crates/lsp_test/src/tower_lsp/codec.rs:216) -/
def splitSemi (acc : List Byte) : List Byte → List (List Byte)
  | [] => [acc.reverse]
  | b :: bs => if b == 59 then acc.reverse :: splitSemi [] bs else splitSemi (b :: acc) bs

/-- `str::strip_prefix("charset=")`. (crates/lsp_test/src/tower_lsp/codec.rs:219) -/
def stripCharset (bs : List Byte) : Option (List Byte) :=
  if [99, 104, 97, 114, 115, 101, 116, 61].isPrefixOf bs then some (bs.drop 8) else none

/-- Is the media type one with the character set `utf-8` or `utf8`? (codec.rs:214-224) -/
def typeOk (v : List Byte) : Bool :=
  match ((splitSemi [] v).drop 1).findSome? (fun p => stripCharset (trim p)) with
  | some c => c == [117, 116, 102, 45, 56] || c == [117, 116, 102, 56]
  | none => false

/-- `decode_headers` (codec.rs:203-235); names are compared with their case, later lengths win. -/
def decodeHeaders (valid : List Byte → Bool) (len : Option Nat) :
    List (List Byte × List Byte) → Except Error Nat
  | [] => match len with
    | some n => .ok n
    | none => .error .missing
  | (name, value) :: hs =>
    if name = lengthName then
      if valid value then
        match parseUsize value with
        | some n => decodeHeaders valid (some n) hs
        | none => .error .contentLength
      else .error .utf8
    else if name = typeName then
      if valid value then
        if typeOk value then decodeHeaders valid len hs else .error .contentType
      else .error .utf8
    else decodeHeaders valid len hs

/-! ## Messages -/

/-- Decimal digits, `fuel` at most. (`{}` of `write!`, codec.rs:129) -/
def decimalAux : Nat → Nat → List Byte
  | 0, _ => []
  | fuel + 1, n =>
    if n < 10 then [UInt8.ofNat (48 + n)] else decimalAux fuel (n / 10) ++ [UInt8.ofNat (48 + n % 10)]

/-- A number as it is written. (`{}` of `write!`, codec.rs:129) -/
def decimal (n : Nat) : List Byte := decimalAux (n + 1) n

/-- `number_of_digits` (codec.rs:136-145), `fuel` steps at most. -/
def numberOfDigitsAux : Nat → Nat → Nat
  | 0, _ => 0
  | fuel + 1, n => if n > 0 then numberOfDigitsAux fuel (n / 10) + 1 else 0

/-- `number_of_digits` (codec.rs:136-145). -/
def numberOfDigits (n : Nat) : Nat := numberOfDigitsAux (n + 1) n

/-- What `encode` reserves in the buffer (codec.rs:127). -/
def reserved (msg : List Byte) : Nat := msg.length + numberOfDigits msg.length + 20

/-- `Encoder::encode` (codec.rs:121-133): what is appended to the buffer. -/
def encode {T : Type} (j : Json T) (x : T) : List Byte :=
  lengthName ++ [58, 32] ++ decimal (j.ser x).length ++ [13, 10, 13, 10] ++ j.ser x

/-- What a call of `decode` returns (codec.rs:151). -/
inductive Result (T : Type) where
  | none
  | item (x : T)
  | error (e : Error)
  deriving DecidableEq, Repr

/-- The decoder and its buffer: `len`: `content_len` (codec.rs:104-107). -/
structure Codec where
  len : Option Nat := none
  buf : List Byte := []
  deriving DecidableEq, Repr

/-- `memmem::find(src, needle)`, with the bytes before as a count. (external; codec.rs:195) -/
def find (needle : List Byte) : List Byte → Option Nat
  | [] => if needle = [] then some 0 else none
  | b :: bs => if needle.isPrefixOf (b :: bs) then some 0 else (find needle bs).map (· + 1)

/-- The first part of `decode`, with known length (codec.rs:152-173). If the bytes are not UTF-8, `?` returns before they are
taken from the buffer. -/
def decodeBody {T : Type} (j : Json T) (n : Nat) (src : List Byte) : Result T × Codec :=
  if src.length < n then (.none, ⟨some n, src⟩)
  else if !j.valid (src.take n) then (.error .utf8, ⟨some n, src⟩)
  else
    (if (src.take n).isEmpty then .none
     else match j.de (src.take n) with
      | some x => .item x
      | none => .error .body,
     ⟨none, src.drop n⟩)

/-- `Decoder::decode` (codec.rs:151-200). -/
def decode {T : Type} (j : Json T) (c : Codec) : Result T × Codec :=
  match c.len with
  | some n => decodeBody j n c.buf
  | none =>
    match parseHeaders 2 c.buf with
    | .more => (.none, c)
    | .bad => (.error .headers, c)
    | .done hs rest =>
      match decodeHeaders j.valid none hs with
      | .ok n => decodeBody j n rest
      | .error e =>
        let src := if e = .missing then c.buf else rest
        (.error e, ⟨none, src.drop ((find lengthName src).getD 0)⟩)

/-- `FramedRead` after bytes have arrived: `decode` is called until it returns no message.
(tokio_util, external; crates/lsp_test/src/lsp_client.rs:65-68) -/
inductive Reads {T : Type} (j : Json T) : Codec → List T → Codec → Prop
  | stop {c c' : Codec} (h : decode j c = (.none, c')) : Reads j c [] c'
  | item {c c' d : Codec} {x : T} {xs : List T} (h : decode j c = (.item x, c')) (hr : Reads j c' xs d) :
    Reads j c (x :: xs) d

/-- The bytes arrive in pieces; the messages that are returned after each of them.
(tokio_util, external; crates/lsp_test/src/lsp_client.rs:65-68) -/
inductive Feeds {T : Type} (j : Json T) : Codec → List (List Byte) → List (List T) → Codec → Prop
  | nil (c : Codec) : Feeds j c [] [] c
  | cons {c c' d : Codec} {p : List Byte} {ps : List (List Byte)} {xs : List T} {xss : List (List T)}
    (h : Reads j ⟨c.len, c.buf ++ p⟩ xs c') (hr : Feeds j c' ps xss d) : Feeds j c (p :: ps) (xs :: xss) d

end Verif.Codec
