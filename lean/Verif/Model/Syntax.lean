/-!
# Syntax kinds and syntax trees

Models the tree type of `biome_rowan` as far as it is used by air: nodes, tokens with leading and
trailing trivia, and the kinds of `crates/air_r_syntax/src/generated/kind.rs`. Texts are lists of
bytes, all offsets are byte offsets.
-/

namespace Verif.Syntax

/-- A byte of a source text (std, external; `&str` of crates/air_r_parser/src/parse.rs:96). -/
abbrev Byte := UInt8

/-- `RSyntaxKind` (`crates/air_r_syntax/src/generated/kind.rs:8-134`), same order. -/
inductive Kind where
  | tombstone | eof | unicodeBom | semicolon | comma | lCurly | rCurly | lBrack | rBrack
  | lBrack2 | rBrack2 | lParen | rParen | wat | tilde | assign | superAssign | walrus
  | assignRight | superAssignRight | equal | orOp | andOp | or2 | and2 | lessThan
  | lessThanOrEqualTo | greaterThan | greaterThanOrEqualTo | equal2 | notEqual | plus | minus
  | multiply | divide | exponentiate | exponentiate2 | pipe | colon | colon2 | colon3 | dollar
  | atSign | bang | dots | backslash | functionKw | forKw | inKw | whileKw | repeatKw | ifKw
  | elseKw | nextKw | breakKw | trueKw | falseKw | nullKw | infKw | nanKw | naLogicalKw
  | naIntegerKw | naDoubleKw | naComplexKw | naCharacterKw | rIntegerLiteral | rDoubleLiteral
  | rComplexLiteral | newline | whitespace | ident | comment | dotdoti | special | stringOpen
  | stringContent | stringClose | rRoot | rIdentifier | rDots | rDotDotI | rUnaryExpression
  | rBinaryExpression | rExtractExpression | rNamespaceExpression | rFunctionDefinition
  | rParameters | rParameterList | rParameter | rParameterDefault | rIfStatement | rElseClause
  | rForStatement | rWhileStatement | rRepeatStatement | rBracedExpressions
  | rParenthesizedExpression | rCall | rCallArguments | rSubset | rSubsetArguments | rSubset2
  | rSubset2Arguments | rArgumentList | rArgument | rArgumentNameClause | rExpressionList
  | rIntegerValue | rDoubleValue | rComplexValue | rStringValue | rNextExpression
  | rBreakExpression | rTrueExpression | rFalseExpression | rNullExpression | rInfExpression
  | rNanExpression | rNaExpression | rBogus | rBogusValue | rBogusExpression | last
  deriving DecidableEq, Repr

/-- `TriviaPieceKind` of `biome_rowan`; the remaining variants (`MultiLineComment`, `Skipped`) are
never produced by air. (external; crates/air_r_parser/src/parse.rs:665-674, 1169-1216) -/
inductive PieceKind where
  | newline | whitespace | comment
  deriving DecidableEq, Repr

/-- A piece of trivia with its text. (biome_rowan, external; crates/air_r_parser/src/parse.rs:1131-1225) -/
structure Piece where
  kind : PieceKind
  text : List Byte
  deriving DecidableEq, Repr

/-- A token with the trivia attached to it (`RSyntaxToken`). (biome_rowan, external;
crates/air_r_syntax/src/syntax_node.rs) -/
structure Token where
  kind : Kind
  leading : List Piece
  text : List Byte
  trailing : List Piece
  deriving DecidableEq, Repr

/-- A syntax tree (`RSyntaxNode` / `RSyntaxToken`). Empty slots have no text and are not
represented. (biome_rowan, external; crates/air_r_syntax/src/syntax_node.rs) -/
inductive Tree where
  | token (t : Token)
  | node (kind : Kind) (children : List Tree)

/-- Text of a list of trivia pieces. (biome_rowan, external; crates/lsp/src/handlers_format.rs:169-199) -/
def piecesText (ps : List Piece) : List Byte := (ps.map Piece.text).flatten

/-- Text of a token including its trivia. (biome_rowan, external; crates/lsp/src/handlers_format.rs:169-199) -/
def Token.full (t : Token) : List Byte := piecesText t.leading ++ t.text ++ piecesText t.trailing

mutual
/-- Tokens of a tree in source order. (biome_rowan, external; crates/lsp/src/handlers_format.rs:169-199) -/
def Tree.tokens : Tree → List Token
  | .token t => [t]
  | .node _ cs => Tree.tokensList cs
/-- Tokens of a list of trees. (auxiliary for `Tree.tokens`) -/
def Tree.tokensList : List Tree → List Token
  | [] => []
  | t :: ts => t.tokens ++ Tree.tokensList ts
end

/-- `SyntaxNode::text_with_trivia`: text of a tree including all trivia. (biome_rowan, external;
crates/lsp/src/handlers_format.rs:129-140) -/
def Tree.full (t : Tree) : List Byte := (t.tokens.map Token.full).flatten

/-- Kind of the root of a tree. (biome_rowan, external; crates/lsp/src/handlers_format.rs:223-245) -/
def Tree.kind : Tree → Kind
  | .token t => t.kind
  | .node k _ => k

end Verif.Syntax
