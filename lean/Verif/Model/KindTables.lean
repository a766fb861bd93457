import Verif.Model.Kinds
import Verif.Model.Factory

/-!
# Numbers and classes of kinds; strength of operators

crates/air_r_syntax/src/lib.rs and the functions of crates/air_r_syntax/src/generated/kind.rs.
-/

namespace Verif.Syntax

/-- The variants of `RSyntaxKind` in the order of the enumeration, which is `repr(u16)`: a variant is numbered by its place
(crates/air_r_syntax/src/generated/kind.rs:8-137). -/
def kindOrder : List Kind :=
  [.tombstone, .eof, .unicodeBom, .semicolon, .comma, .lCurly, .rCurly, .lBrack, .rBrack, .lBrack2, .rBrack2,
   .lParen, .rParen, .wat, .tilde, .assign, .superAssign, .walrus, .assignRight, .superAssignRight, .equal,
   .orOp, .andOp, .or2, .and2, .lessThan, .lessThanOrEqualTo, .greaterThan, .greaterThanOrEqualTo, .equal2,
   .notEqual, .plus, .minus, .multiply, .divide, .exponentiate, .exponentiate2, .pipe, .colon, .colon2,
   .colon3, .dollar, .atSign, .bang, .dots, .backslash, .functionKw, .forKw, .inKw, .whileKw, .repeatKw,
   .ifKw, .elseKw, .nextKw, .breakKw, .trueKw, .falseKw, .nullKw, .infKw, .nanKw, .naLogicalKw, .naIntegerKw,
   .naDoubleKw, .naComplexKw, .naCharacterKw, .rIntegerLiteral, .rDoubleLiteral, .rComplexLiteral, .newline,
   .whitespace, .ident, .comment, .dotdoti, .special, .stringOpen, .stringContent, .stringClose, .rRoot,
   .rIdentifier, .rDots, .rDotDotI, .rUnaryExpression, .rBinaryExpression, .rExtractExpression,
   .rNamespaceExpression, .rFunctionDefinition, .rParameters, .rParameterList, .rParameter,
   .rParameterDefault, .rIfStatement, .rElseClause, .rForStatement, .rWhileStatement, .rRepeatStatement,
   .rBracedExpressions, .rParenthesizedExpression, .rCall, .rCallArguments, .rSubset, .rSubsetArguments,
   .rSubset2, .rSubset2Arguments, .rArgumentList, .rArgument, .rArgumentNameClause, .rExpressionList,
   .rIntegerValue, .rDoubleValue, .rComplexValue, .rStringValue, .rNextExpression, .rBreakExpression,
   .rTrueExpression, .rFalseExpression, .rNullExpression, .rInfExpression, .rNanExpression, .rNaExpression,
   .rBogus, .rBogusValue, .rBogusExpression, .last]

/-- `From<RSyntaxKind> for u16`, `to_raw` (lib.rs:19-23, 293-295). -/
def Kind.number (k : Kind) : Nat := kindOrder.idxOf k

/-- What becomes of a number: a kind, a panic, or undefined behaviour. (crates/air_r_syntax/src/lib.rs:12-17) -/
inductive Outcome
  | kind (k : Kind) | panic | undefined
  deriving DecidableEq, Repr

/-- `From<u16> for RSyntaxKind`, `from_raw` (lib.rs:12-17, 298-300). `transmute` is undefined if there is no variant of this
number. -/
def fromU16 (n : Nat) : Outcome :=
  if n ≤ Kind.number .last then
    match kindOrder[n]? with
    | some k => .kind k
    | none => .undefined
  else .panic

/-- `is_bogus` (lib.rs:29-157). -/
def Kind.isBogus : Kind → Bool
  | .rBogus | .rBogusValue | .rBogusExpression => true
  | _ => false

/-- `is_trivia` (lib.rs:310-315). -/
def Kind.isTrivia : Kind → Bool
  | .newline | .whitespace | .comment => true
  | _ => false

/-- `TryFrom<RSyntaxKind> for TriviaPieceKind` (lib.rs:322-337): `some none` is the error, `none` the `unreachable!`. -/
def triviaPiece (k : Kind) : Option (Option PieceKind) :=
  if k.isTrivia then
    match k with
    | .newline => some (some .newline)
    | .whitespace => some (some .whitespace)
    | .comment => some (some .comment)
    | _ => none
  else some none

/-- `is_punct` (crates/air_r_syntax/src/generated/kind.rs:140-187). -/
def Kind.isPunct : Kind → Bool
  | .semicolon | .comma | .lCurly | .rCurly | .lBrack | .rBrack | .lBrack2 | .rBrack2 | .lParen | .rParen |
  .wat | .tilde | .assign | .superAssign | .walrus | .assignRight | .superAssignRight | .equal | .orOp |
  .andOp | .or2 | .and2 | .lessThan | .lessThanOrEqualTo | .greaterThan | .greaterThanOrEqualTo | .equal2 |
  .notEqual | .plus | .minus | .multiply | .divide | .exponentiate | .exponentiate2 | .pipe | .colon | .colon2
  | .colon3 | .dollar | .atSign | .bang | .dots | .backslash => true
  | _ => false

/-- `is_literal` (crates/air_r_syntax/src/generated/kind.rs:188-193). -/
def Kind.isLiteral : Kind → Bool
  | .rIntegerLiteral | .rDoubleLiteral | .rComplexLiteral => true
  | _ => false

/-- `is_list` (crates/air_r_syntax/src/generated/kind.rs:194-199). -/
def Kind.isList : Kind → Bool
  | .rParameterList | .rArgumentList | .rExpressionList => true
  | _ => false

/-- The table of `from_keyword` (crates/air_r_syntax/src/generated/kind.rs:200-224). -/
def keywordTable : List (String × Kind) :=
  [("function", .functionKw), ("for", .forKw), ("in", .inKw), ("while", .whileKw), ("repeat", .repeatKw),
   ("if", .ifKw), ("else", .elseKw), ("next", .nextKw), ("break", .breakKw), ("true", .trueKw),
   ("false", .falseKw), ("null", .nullKw), ("inf", .infKw), ("nan", .nanKw), ("na_logical", .naLogicalKw),
   ("na_integer", .naIntegerKw), ("na_double", .naDoubleKw), ("na_complex", .naComplexKw),
   ("na_character", .naCharacterKw)]

/-- `from_keyword` (crates/air_r_syntax/src/generated/kind.rs:200-224). -/
def fromKeyword (s : String) : Option Kind := keywordTable.lookup s

/-- `OperatorPrecedence` (lib.rs:339-359). -/
inductive Precedence
  | help | leftAssignment | equalsAssignment | rightAssignment | tilde | logicalOr | logicalAnd | unaryNot | relational
  | additive | multiplicative | special | colon | unaryPlusMinus | exponential | extract | namespace
  deriving DecidableEq, Repr

/-- The order of `OperatorPrecedence`, which is derived: by the numbers (lib.rs:339-359). -/
def Precedence.number : Precedence → Nat
  | .help => 0
  | .leftAssignment => 1
  | .equalsAssignment => 2
  | .rightAssignment => 3
  | .tilde => 4
  | .logicalOr => 5
  | .logicalAnd => 6
  | .unaryNot => 7
  | .relational => 8
  | .additive => 9
  | .multiplicative => 10
  | .special => 11
  | .colon => 12
  | .unaryPlusMinus => 13
  | .exponential => 14
  | .extract => 15
  | .namespace => 16

/-- `OperatorPrecedence::try_from_binary_operator` (lib.rs:366-397). -/
def binaryPrecedence : Kind → Option Precedence
  | .wat => some .help
  | .assign | .superAssign | .walrus => some .leftAssignment
  | .equal => some .equalsAssignment
  | .assignRight | .superAssignRight => some .rightAssignment
  | .tilde => some .tilde
  | .orOp | .or2 => some .logicalOr
  | .andOp | .and2 => some .logicalAnd
  | .equal2 | .greaterThan | .greaterThanOrEqualTo | .lessThan | .lessThanOrEqualTo => some .relational
  | .plus | .minus => some .additive
  | .multiply | .divide => some .multiplicative
  | .pipe | .special => some .special
  | .colon => some .colon
  | .exponentiate | .exponentiate2 => some .exponential
  | _ => none

end Verif.Syntax
