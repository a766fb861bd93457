import Verif.Model.Codec

/-!
# Messages and the bytes they are sent as
-/

namespace Verif.Codec

/-- Headers as a client writes them, with the empty line after them. -/
def block (hs : List (List Byte × List Byte)) : List Byte :=
  hs.flatMap (fun h => h.1 ++ [58, 32] ++ h.2 ++ [13, 10]) ++ [13, 10]

/-- Is the byte a space or a tab? -/
def isBlank (b : Byte) : Prop := b = 32 ∨ b = 9

/-- Letters, digits and the hyphen. -/
def isWordByte (b : Byte) : Prop := (48 ≤ b ∧ b ≤ 57) ∨ (65 ≤ b ∧ b ≤ 90) ∨ (97 ≤ b ∧ b ≤ 122) ∨ b = 45

/-- A header with a name of letters, digits and hyphens, and a value of printable characters (or bytes above 127) without
white space around it. -/
structure PlainHeader (h : List Byte × List Byte) : Prop where
  named : h.1 ≠ []
  word : ∀ b ∈ h.1, isWordByte b
  print : ∀ b ∈ h.2, b = 9 ∨ 32 ≤ b ∧ b ≠ 127
  first : ∀ b, h.2.head? = some b → ¬isBlank b
  last : ∀ b, h.2.getLast? = some b → ¬isBlank b

/-- `; charset=` -/
def charsetText : List Byte := [59, 32, 99, 104, 97, 114, 115, 101, 116, 61]

/-- A header that does not matter: some other header, or a type with the character set `utf-8` or `utf8`. -/
def Harmless (h : List Byte × List Byte) : Prop :=
  h.1 ≠ lengthName ∧ (h.1 = typeName → ∃ mime, 59 ∉ mime ∧ (h.2 = mime ++ charsetText ++ [117, 116, 102, 45, 56] ∨
    h.2 = mime ++ charsetText ++ [117, 116, 102, 56]))

/-- The headers say that the message has `n` bytes; there may be one more header before or after. -/
inductive Tells (n : Nat) : List (List Byte × List Byte) → Prop
  | alone : Tells n [(lengthName, decimal n)]
  | before (h : List Byte × List Byte) (hh : Harmless h) : Tells n [h, (lengthName, decimal n)]
  | after (h : List Byte × List Byte) (hh : Harmless h) : Tells n [(lengthName, decimal n), h]

/-- No length: no digits, something that is no digit, or a number that is too large. -/
def NoLength (v : List Byte) : Prop :=
  v = [] ∨ v = [43] ∨ (∃ b ∈ v, b ≠ 43 ∧ ¬(48 ≤ b ∧ b ≤ 57)) ∨ ∃ n, 2 ^ 64 ≤ n ∧ v = decimal n

/-- A type without or with another character set. -/
def OtherType (v : List Byte) : Prop :=
  59 ∉ v ∨ ∃ mime c, 59 ∉ mime ∧ 59 ∉ c ∧ (∀ b ∈ c, 32 < b) ∧ c ≠ [117, 116, 102, 45, 56] ∧ c ≠ [117, 116, 102, 56] ∧
    v = mime ++ charsetText ++ c

/-- A message with its headers. -/
structure Frame (T : Type) where
  headers : List (List Byte × List Byte)
  body : List Byte
  item : T

/-- What is sent. -/
def Frame.bytes {T : Type} (f : Frame T) : List Byte := block f.headers ++ f.body

/-- The headers are at most two and say how long the message is; the message is not empty and is JSON. -/
structure Frame.Good {T : Type} (j : Json T) (f : Frame T) : Prop where
  plain : ∀ h ∈ f.headers, PlainHeader h
  told : Tells f.body.length f.headers
  utf8 : ∀ h ∈ f.headers, j.valid h.2 = true
  fits : f.body.length < 2 ^ 64
  valid : j.valid f.body = true
  nonempty : f.body ≠ []
  parses : j.de f.body = some f.item

/-- One message after the other. -/
def stream {T : Type} (fs : List (Frame T)) : List Byte := fs.flatMap Frame.bytes

/-- The messages that have arrived completely if `n` bytes have arrived. -/
def arrived {T : Type} : List (Frame T) → Nat → List T
  | [], _ => []
  | f :: fs, n => if f.bytes.length ≤ n then f.item :: arrived fs (n - f.bytes.length) else []

/-- What is known of JSON and UTF-8: what is written is not empty, is UTF-8 and is read again, and ASCII is UTF-8. -/
structure Json.Sound {T : Type} (j : Json T) : Prop where
  again : ∀ x, j.de (j.ser x) = some x
  valid : ∀ x, j.valid (j.ser x) = true
  nonempty : ∀ x, j.ser x ≠ []
  ascii : ∀ bs : List Byte, (∀ b ∈ bs, b < 128) → j.valid bs = true

end Verif.Codec
