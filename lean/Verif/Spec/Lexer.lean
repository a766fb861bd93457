import Verif.Spec.Grammar

/-!
# R's lexer

How R cuts the bytes of a file into tokens: a transcription of what R's documentation says (`?Syntax`,
`?NumericConstants`, `?Quotes`, `?Reserved`), independent of air. Together with `readFile` this gives a
reader of texts (`readText`).

A token ends where the next byte cannot belong to it. Two things depend on what comes before: `]]` is one
token exactly if the innermost open bracket is `[[`, and between the quotes of a string everything is
content. So the lexer keeps the tokens that are open.

Deviations: bytes of characters outside of ASCII belong to names; strings consist of three tokens, as in
tree-sitter-r; `]]` after `[[` is one token, as in tree-sitter-r (for R it is two, so that `a[[1] ]` is
accepted); `0x.` is a number, as in tree-sitter-r; `=>` is not a token.
-/

namespace Verif.Format
open Verif.Syntax

/-! ## Characters -/

def isDigit (b : Byte) : Bool := 48 ≤ b && b ≤ 57
def isLetter (b : Byte) : Bool := (65 ≤ b && b ≤ 90) || (97 ≤ b && b ≤ 122)
def isHex (b : Byte) : Bool := isDigit b || (65 ≤ b && b ≤ 70) || (97 ≤ b && b ≤ 102)

/-- Part of a name: letters, digits, `.`, `_`. -/
def isWord (b : Byte) : Bool := isLetter b || isDigit b || b == 46 || b == 95 || 128 ≤ b

/-- Quotes of strings. -/
def isQuote (b : Byte) : Bool := b == 34 || b == 39

/-- Between tokens: tab, vertical tab, form feed, carriage return, space. -/
def isBlank (b : Byte) : Bool := b == 9 || b == 11 || b == 12 || b == 13 || b == 32

/-! ## Tokens -/

/-- Operators and brackets other than `]` and `]]`. -/
def symbols : List (List Byte × Kind) :=
  [([44], .comma), ([123], .lCurly), ([125], .rCurly), ([91], .lBrack), ([91, 91], .lBrack2),
   ([40], .lParen), ([41], .rParen), ([63], .wat), ([126], .tilde), ([60, 45], .assign),
   ([60, 60, 45], .superAssign), ([58, 61], .walrus), ([45, 62], .assignRight),
   ([45, 62, 62], .superAssignRight), ([61], .equal), ([124], .orOp), ([38], .andOp),
   ([124, 124], .or2), ([38, 38], .and2), ([60], .lessThan), ([60, 61], .lessThanOrEqualTo),
   ([62], .greaterThan), ([62, 61], .greaterThanOrEqualTo), ([61, 61], .equal2), ([33, 61], .notEqual),
   ([43], .plus), ([45], .minus), ([42], .multiply), ([47], .divide), ([94], .exponentiate),
   ([42, 42], .exponentiate2), ([124, 62], .pipe), ([58], .colon), ([58, 58], .colon2),
   ([58, 58, 58], .colon3), ([36], .dollar), ([64], .atSign), ([33], .bang), ([92], .backslash)]

/-- Reserved words. -/
def reserved : List (List Byte × Kind) :=
  [([102, 117, 110, 99, 116, 105, 111, 110], .functionKw), ([102, 111, 114], .forKw),
   ([105, 110], .inKw), ([119, 104, 105, 108, 101], .whileKw),
   ([114, 101, 112, 101, 97, 116], .repeatKw), ([105, 102], .ifKw), ([101, 108, 115, 101], .elseKw),
   ([110, 101, 120, 116], .nextKw), ([98, 114, 101, 97, 107], .breakKw), ([84, 82, 85, 69], .trueKw),
   ([70, 65, 76, 83, 69], .falseKw), ([78, 85, 76, 76], .nullKw), ([73, 110, 102], .infKw),
   ([78, 97, 78], .nanKw), ([78, 65], .naLogicalKw),
   ([78, 65, 95, 105, 110, 116, 101, 103, 101, 114, 95], .naIntegerKw),
   ([78, 65, 95, 114, 101, 97, 108, 95], .naDoubleKw),
   ([78, 65, 95, 99, 111, 109, 112, 108, 101, 120, 95], .naComplexKw),
   ([78, 65, 95, 99, 104, 97, 114, 97, 99, 116, 101, 114, 95], .naCharacterKw),
   ([46, 46, 46], .dots)]

/-- The kind of a word: reserved, `..1`, `..2`, …, or a name. -/
def wordKind (w : List Byte) : Kind :=
  match reserved.find? (fun p => p.1 == w) with
  | some p => p.2
  | none =>
    match w with
    | 46 :: 46 :: d :: ds => if (d :: ds).all isDigit then .dotdoti else .ident
    | _ => .ident

/-- What was read of a token so far.
* `name`, `rawName` (`r` or `R`, which may start a raw string), `dot`
* numbers: `zero`, `whole`, `fraction`, `mark` (after `e` or `p`), `sign`, `exponent`, `hex0` (after
  `0x`), `hex`, `hexFraction`
* `raw`: after the quote of a raw string
* `tick`, `tickEscape`: a name in backticks
* `percent`: an operator `%…%`
* `bracket`: `]` where `]]` is expected
* `symbol`: operators and brackets
* `done`: complete -/
inductive Scan where
  | name | rawName | dot
  | zero | whole | fraction | mark | sign | exponent | hex0 | hex | hexFraction
  | raw | tick | tickEscape | percent | bracket
  | symbol (text : List Byte)
  | done (k : Kind)
  deriving DecidableEq, Repr

/-- The suffixes of numbers. -/
def suffix (b : Byte) : Option Scan :=
  if b = 76 then some (.done .rIntegerLiteral)
  else if b = 105 then some (.done .rComplexLiteral)
  else none

def isE (b : Byte) : Bool := b == 69 || b == 101
def isP (b : Byte) : Bool := b == 80 || b == 112
def isX (b : Byte) : Bool := b == 88 || b == 120

/-- The text is the beginning of an operator. -/
def symbolStart (t : List Byte) : Bool := symbols.any (fun p => t.isPrefixOf p.1)

/-- The first byte of a token; `two`: the innermost open bracket is `[[`. -/
def start (two : Bool) (b : Byte) : Option Scan :=
  if isDigit b then some (if b = 48 then .zero else .whole)
  else if b = 46 then some .dot
  else if b = 82 ∨ b = 114 then some .rawName
  else if isWord b then some .name
  else if isQuote b then some (.done .stringOpen)
  else if b = 96 then some .tick
  else if b = 37 then some .percent
  else if b = 93 then some (if two then .bracket else .done .rBrack)
  else if symbolStart [b] then some (.symbol [b])
  else none

/-- One more byte; `none`: it does not belong to the token. -/
def Scan.step (s : Scan) (b : Byte) : Option Scan :=
  match s with
  | .name => if isWord b then some .name else none
  | .rawName => if isQuote b then some .raw else if isWord b then some .name else none
  | .dot => if isDigit b then some .fraction else if isWord b then some .name else none
  | .zero =>
    if isDigit b then some .whole else if b = 46 then some .fraction
    else if isE b then some .mark else if isX b then some .hex0 else suffix b
  | .whole =>
    if isDigit b then some .whole else if b = 46 then some .fraction
    else if isE b then some .mark else suffix b
  | .fraction => if isDigit b then some .fraction else if isE b then some .mark else suffix b
  | .mark => if isDigit b then some .exponent else if b = 43 ∨ b = 45 then some .sign else none
  | .sign => if isDigit b then some .exponent else none
  | .exponent => if isDigit b then some .exponent else suffix b
  | .hex0 => if isHex b then some .hex else if b = 46 then some .hexFraction else none
  | .hex =>
    if isHex b then some .hex else if b = 46 then some .hexFraction
    else if isP b then some .mark else suffix b
  | .hexFraction => if isHex b then some .hexFraction else if isP b then some .mark else suffix b
  | .raw =>
    if b = 45 then some .raw
    else if b = 40 ∨ b = 91 ∨ b = 123 then some (.done .stringOpen)
    else none
  | .tick => some (if b = 92 then .tickEscape else if b = 96 then .done .ident else .tick)
  | .tickEscape => some .tick
  | .percent => if b = 37 then some (.done .special) else if b = 10 then none else some .percent
  | .bracket => if b = 93 then some (.done .rBrack2) else none
  | .symbol t => if symbolStart (t ++ [b]) then some (.symbol (t ++ [b])) else none
  | .done _ => none

/-- The kind of a token that ends here. -/
def Scan.kind (s : Scan) (text : List Byte) : Option Kind :=
  match s with
  | .name | .rawName | .dot => some (wordKind text)
  | .zero | .whole | .fraction | .exponent | .hex | .hexFraction => some .rDoubleLiteral
  | .bracket => some .rBrack
  | .symbol t => (symbols.find? (fun p => p.1 == t)).map (·.2)
  | .done k => some k
  | .mark | .sign | .hex0 | .raw | .tick | .tickEscape | .percent => none

/-- As many bytes as belong to the token; the bytes, the rest, and the state at the end. -/
def Scan.munch (s : Scan) : List Byte → List Byte × List Byte × Scan
  | [] => ([], [], s)
  | b :: bs =>
    match s.step b with
    | some s' => (b :: (s'.munch bs).1, (s'.munch bs).2)
    | none => ([], b :: bs, s)

/-- The next token outside of strings. -/
def nextCode (two : Bool) : List Byte → Option (Tok × List Byte)
  | [] => none
  | b :: bs =>
    match start two b with
    | none => none
    | some s =>
      match (s.munch bs).2.2.kind (b :: (s.munch bs).1) with
      | some k => some (⟨k, b :: (s.munch bs).1⟩, (s.munch bs).2.1)
      | none => none

/-! ## Strings -/

/-- Content of a string up to the quote, and the rest. -/
def plainBody (q : Byte) : List Byte → Option (List Byte × List Byte)
  | [] => none
  | [b] => if b = q then some ([], [b]) else none
  | b :: c :: bs =>
    if b = q then some ([], b :: c :: bs)
    else if b = 92 then (plainBody q bs).map (fun r => (b :: c :: r.1, r.2))
    else (plainBody q (c :: bs)).map (fun r => (b :: r.1, r.2))

/-- Content of a raw string up to the end. -/
def rawBody (close : List Byte) : List Byte → Option (List Byte × List Byte)
  | [] => none
  | b :: bs =>
    if close.isPrefixOf (b :: bs) then some ([], b :: bs)
    else (rawBody close bs).map (fun r => (b :: r.1, r.2))

/-- The bracket that closes a raw string. -/
def closing (b : Byte) : Byte := if b = 40 then 41 else if b = 91 then 93 else 125

/-- What ends a string that starts with `q`: the quote, or bracket, dashes and quote. -/
def closeText : List Byte → List Byte
  | [] => []
  | [b] => [b]
  | _ :: q :: bs =>
    closing (bs.getLast?.getD 0) :: (bs.dropLast ++ [q])

/-- Content of the string that starts with `q`. -/
def stringBody : List Byte → List Byte → Option (List Byte × List Byte)
  | [b], bs => plainBody b bs
  | q, bs => rawBody (closeText q) bs

/-- The next token inside of the string that starts with `q`. -/
def nextString (q : List Byte) (bs : List Byte) : Option (Tok × List Byte) :=
  match stringBody q bs with
  | none => none
  | some ([], rest) => some (⟨.stringClose, closeText q⟩, rest.drop (closeText q).length)
  | some (c, rest) => some (⟨.stringContent, c⟩, rest)

/-! ## Files -/

def opens : Kind → Bool
  | .lCurly | .lBrack | .lBrack2 | .lParen | .stringOpen => true
  | _ => false

def closes : Kind → Bool
  | .rCurly | .rBrack | .rBrack2 | .rParen | .stringClose => true
  | _ => false

/-- The open tokens after `t`. -/
def openAfter (st : List Tok) (t : Tok) : List Tok :=
  if opens t.kind then t :: st else if closes t.kind then st.tail else st

/-- The string that is open. -/
def openString : List Tok → Option (List Byte)
  | [] => none
  | t :: _ => if t.kind = .stringOpen then some t.text else none

/-- Is the innermost open bracket `[[`? -/
def openTwo : List Tok → Bool
  | [] => false
  | t :: _ => t.kind == .lBrack2

/-- The next token. -/
def nextTok (st : List Tok) (bs : List Byte) : Option (Tok × List Byte) :=
  match openString st with
  | some q => nextString q bs
  | none => nextCode (openTwo st) bs

/-- The tokens of a text, each with whether a line break or `;` comes before it. `st`: open tokens,
`fresh`: a line break came before, the number bounds the depth of the recursion. -/
def lexFrom : Nat → List Tok → Bool → List Byte → Option Seen
  | 0, _, _, _ => none
  | n + 1, st, fresh, bs =>
    if (openString st).isSome then
      match nextTok st bs with
      | none => none
      | some (t, rest) => (lexFrom n (openAfter st t) false rest).map ((fresh, t) :: ·)
    else
      match bs with
      | [] => some []
      | b :: bs =>
        if b = 10 ∨ b = 59 then lexFrom n st true bs
        else if isBlank b then lexFrom n st fresh bs
        else if b = 35 then lexFrom n st fresh (bs.dropWhile (fun c => c != 10))
        else
          match nextTok st (b :: bs) with
          | none => none
          | some (t, rest) => (lexFrom n (openAfter st t) false rest).map ((fresh, t) :: ·)

/-- The tokens of a file. -/
def lexText (bs : List Byte) : Option Seen := lexFrom (bs.length + 1) [] true bs

/-- The program in a file. -/
def readText (bs : List Byte) : Option Exprs := (lexText bs).bind readFile

end Verif.Format
