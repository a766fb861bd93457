import Verif.Model.Codegen
import Verif.Model.Factory

/-!
# The grammar of the syntax tree
-/

namespace Verif.Ungrammar

/-- Rules one after the other. (xtask/codegen/r.ungram) -/
def rules : List (Rule Name) → Rules Name
  | [] => .nil
  | r :: rs => .cons r (rules rs)

/-- The definitions of xtask/codegen/r.ungram:30-355. -/
def rUngram : Gram :=
  [("SyntaxElement".toList, .node "SyntaxElement".toList),
   ("RBogus".toList, .rep (.node "SyntaxElement".toList)),
   ("RBogusValue".toList, .rep (.node "SyntaxElement".toList)),
   ("RBogusExpression".toList, .rep (.node "SyntaxElement".toList)),
   ("RRoot".toList, .seq (rules [.labeled "bom".toList (.opt (.token "UNICODE_BOM".toList)), .labeled
    "expressions".toList (.node "RExpressionList".toList), .labeled "eof".toList (.token "EOF".toList)])),
   ("RUnaryExpression".toList, .seq (rules [.labeled "operator".toList (.alt (rules [.token "+".toList, .token
    "-".toList, .token "~".toList, .token "!".toList, .token "?".toList])), .labeled "argument".toList (.node
    "AnyRExpression".toList)])),
   ("RBinaryExpression".toList, .seq (rules [.labeled "left".toList (.node "AnyRExpression".toList), .labeled
    "operator".toList (.alt (rules [.token "?".toList, .token ":".toList, .token "~".toList, .token "<-".toList, .token
    "<<-".toList, .token ":=".toList, .token "->".toList, .token "->>".toList, .token "=".toList, .token "|".toList,
    .token "&".toList, .token "||".toList, .token "&&".toList, .token "<".toList, .token "<=".toList, .token ">".toList,
    .token ">=".toList, .token "==".toList, .token "!=".toList, .token "+".toList, .token "-".toList, .token "*".toList,
    .token "/".toList, .token "^".toList, .token "**".toList, .token "|>".toList, .token "special".toList])), .labeled
    "right".toList (.node "AnyRExpression".toList)])),
   ("RExtractExpression".toList, .seq (rules [.labeled "left".toList (.node "AnyRExpression".toList), .labeled
    "operator".toList (.alt (rules [.token "$".toList, .token "@".toList])), .labeled "right".toList (.node
    "AnyRSelector".toList)])),
   ("RNamespaceExpression".toList, .seq (rules [.labeled "left".toList (.node "AnyRSelector".toList), .labeled
    "operator".toList (.alt (rules [.token "::".toList, .token ":::".toList])), .labeled "right".toList (.node
    "AnyRSelector".toList)])),
   ("AnyRSelector".toList, .alt (rules [.node "RIdentifier".toList, .node "RStringValue".toList, .node "RDots".toList,
    .node "RDotDotI".toList])),
   ("RFunctionDefinition".toList, .seq (rules [.labeled "name".toList (.alt (rules [.token "function".toList, .token
    "\\".toList])), .labeled "parameters".toList (.node "RParameters".toList), .labeled "body".toList (.node
    "AnyRExpression".toList)])),
   ("RParameters".toList, .seq (rules [.token "(".toList, .labeled "items".toList (.node "RParameterList".toList), .token
    ")".toList])),
   ("RParameterList".toList, .seq (rules [.node "RParameter".toList, .rep (.seq (rules [.token ",".toList, .node
    "RParameter".toList]))])),
   ("RParameter".toList, .seq (rules [.labeled "name".toList (.node "AnyRParameterName".toList), .labeled
    "default".toList (.opt (.node "RParameterDefault".toList))])),
   ("RParameterDefault".toList, .seq (rules [.token "=".toList, .labeled "value".toList (.node
    "AnyRExpression".toList)])),
   ("AnyRParameterName".toList, .alt (rules [.node "RIdentifier".toList, .node "RDots".toList, .node "RDotDotI".toList])),
   ("RIfStatement".toList, .seq (rules [.token "if".toList, .token "(".toList, .labeled "condition".toList (.node
    "AnyRExpression".toList), .token ")".toList, .labeled "consequence".toList (.node "AnyRExpression".toList), .labeled
    "else_clause".toList (.opt (.node "RElseClause".toList))])),
   ("RElseClause".toList, .seq (rules [.token "else".toList, .labeled "alternative".toList (.node
    "AnyRExpression".toList)])),
   ("RForStatement".toList, .seq (rules [.token "for".toList, .token "(".toList, .labeled "variable".toList (.node
    "RIdentifier".toList), .token "in".toList, .labeled "sequence".toList (.node "AnyRExpression".toList), .token
    ")".toList, .labeled "body".toList (.node "AnyRExpression".toList)])),
   ("RWhileStatement".toList, .seq (rules [.token "while".toList, .token "(".toList, .labeled "condition".toList (.node
    "AnyRExpression".toList), .token ")".toList, .labeled "body".toList (.node "AnyRExpression".toList)])),
   ("RRepeatStatement".toList, .seq (rules [.token "repeat".toList, .labeled "body".toList (.node
    "AnyRExpression".toList)])),
   ("RBracedExpressions".toList, .seq (rules [.token "{".toList, .labeled "expressions".toList (.node
    "RExpressionList".toList), .token "}".toList])),
   ("RParenthesizedExpression".toList, .seq (rules [.token "(".toList, .labeled "body".toList (.node
    "AnyRExpression".toList), .token ")".toList])),
   ("RCall".toList, .seq (rules [.labeled "function".toList (.node "AnyRExpression".toList), .labeled "arguments".toList
    (.node "RCallArguments".toList)])),
   ("RCallArguments".toList, .seq (rules [.token "(".toList, .labeled "items".toList (.node "RArgumentList".toList),
    .token ")".toList])),
   ("RSubset".toList, .seq (rules [.labeled "function".toList (.node "AnyRExpression".toList), .labeled
    "arguments".toList (.node "RSubsetArguments".toList)])),
   ("RSubsetArguments".toList, .seq (rules [.token "[".toList, .labeled "items".toList (.node "RArgumentList".toList),
    .token "]".toList])),
   ("RSubset2".toList, .seq (rules [.labeled "function".toList (.node "AnyRExpression".toList), .labeled
    "arguments".toList (.node "RSubset2Arguments".toList)])),
   ("RSubset2Arguments".toList, .seq (rules [.token "[[".toList, .labeled "items".toList (.node "RArgumentList".toList),
    .token "]]".toList])),
   ("RArgumentList".toList, .seq (rules [.node "RArgument".toList, .rep (.seq (rules [.token ",".toList, .node
    "RArgument".toList]))])),
   ("RArgument".toList, .seq (rules [.labeled "name_clause".toList (.opt (.node "RArgumentNameClause".toList)), .labeled
    "value".toList (.opt (.node "AnyRExpression".toList))])),
   ("RArgumentNameClause".toList, .seq (rules [.labeled "name".toList (.node "AnyRArgumentName".toList), .token
    "=".toList])),
   ("AnyRArgumentName".toList, .alt (rules [.node "RIdentifier".toList, .node "RStringValue".toList, .node
    "RDots".toList, .node "RDotDotI".toList, .node "RNullExpression".toList])),
   ("RExpressionList".toList, .rep (.node "AnyRExpression".toList)),
   ("AnyRExpression".toList, .alt (rules [.node "AnyRValue".toList, .node "RIdentifier".toList, .node
    "RUnaryExpression".toList, .node "RBinaryExpression".toList, .node "RExtractExpression".toList, .node
    "RNamespaceExpression".toList, .node "RFunctionDefinition".toList, .node "RIfStatement".toList, .node
    "RForStatement".toList, .node "RWhileStatement".toList, .node "RRepeatStatement".toList, .node
    "RBracedExpressions".toList, .node "RParenthesizedExpression".toList, .node "RCall".toList, .node "RSubset".toList,
    .node "RSubset2".toList, .node "RNextExpression".toList, .node "RBreakExpression".toList, .node
    "RTrueExpression".toList, .node "RFalseExpression".toList, .node "RNullExpression".toList, .node
    "RInfExpression".toList, .node "RNanExpression".toList, .node "RNaExpression".toList, .node "RDots".toList, .node
    "RDotDotI".toList, .node "RBogusExpression".toList])),
   ("AnyRValue".toList, .alt (rules [.node "RIntegerValue".toList, .node "RDoubleValue".toList, .node
    "RComplexValue".toList, .node "RStringValue".toList, .node "RBogusValue".toList])),
   ("RIntegerValue".toList, .labeled "value".toList (.token "r_integer_literal".toList)),
   ("RDoubleValue".toList, .labeled "value".toList (.token "r_double_literal".toList)),
   ("RComplexValue".toList, .labeled "value".toList (.token "r_complex_literal".toList)),
   ("RStringValue".toList, .seq (rules [.labeled "open".toList (.token "string_open".toList), .labeled "content".toList
    (.opt (.token "string_content".toList)), .labeled "close".toList (.token "string_close".toList)])),
   ("RNextExpression".toList, .token "next".toList),
   ("RBreakExpression".toList, .token "break".toList),
   ("RTrueExpression".toList, .token "true".toList),
   ("RFalseExpression".toList, .token "false".toList),
   ("RNullExpression".toList, .token "null".toList),
   ("RInfExpression".toList, .token "inf".toList),
   ("RNanExpression".toList, .token "nan".toList),
   ("RNaExpression".toList, .labeled "value".toList (.alt (rules [.token "na_logical".toList, .token "na_integer".toList,
    .token "na_double".toList, .token "na_complex".toList, .token "na_character".toList]))),
   ("RDots".toList, .labeled "value".toList (.token "...".toList)),
   ("RDotDotI".toList, .labeled "value".toList (.token "dotdoti".toList)),
   ("RIdentifier".toList, .labeled "name".toList (.token "ident".toList))]

/-- What the kinds of the syntax tree are called in the grammar: nodes by their name (`Case::Constant`), tokens by what
`T!` and `token_kind_to_code` make of them (xtask/codegen/src/generate_nodes.rs: token_kind_to_code,
xtask/codegen/src/r_kinds_src.rs:4-130, crates/air_r_syntax/src/generated/kind.rs:10-200). The first and last kind, `;`, blanks and
comments are not in the grammar. -/
def elemOf : Syntax.Kind → Elem
  | .tombstone => .token "tombstone".toList
  | .eof => .token "EOF".toList
  | .unicodeBom => .token "UNICODE_BOM".toList
  | .semicolon => .token ";".toList
  | .comma => .token ",".toList
  | .lCurly => .token "{".toList
  | .rCurly => .token "}".toList
  | .lBrack => .token "[".toList
  | .rBrack => .token "]".toList
  | .lBrack2 => .token "[[".toList
  | .rBrack2 => .token "]]".toList
  | .lParen => .token "(".toList
  | .rParen => .token ")".toList
  | .wat => .token "?".toList
  | .tilde => .token "~".toList
  | .assign => .token "<-".toList
  | .superAssign => .token "<<-".toList
  | .walrus => .token ":=".toList
  | .assignRight => .token "->".toList
  | .superAssignRight => .token "->>".toList
  | .equal => .token "=".toList
  | .orOp => .token "|".toList
  | .andOp => .token "&".toList
  | .or2 => .token "||".toList
  | .and2 => .token "&&".toList
  | .lessThan => .token "<".toList
  | .lessThanOrEqualTo => .token "<=".toList
  | .greaterThan => .token ">".toList
  | .greaterThanOrEqualTo => .token ">=".toList
  | .equal2 => .token "==".toList
  | .notEqual => .token "!=".toList
  | .plus => .token "+".toList
  | .minus => .token "-".toList
  | .multiply => .token "*".toList
  | .divide => .token "/".toList
  | .exponentiate => .token "^".toList
  | .exponentiate2 => .token "**".toList
  | .pipe => .token "|>".toList
  | .colon => .token ":".toList
  | .colon2 => .token "::".toList
  | .colon3 => .token ":::".toList
  | .dollar => .token "$".toList
  | .atSign => .token "@".toList
  | .bang => .token "!".toList
  | .dots => .token "...".toList
  | .backslash => .token "\\".toList
  | .functionKw => .token "function".toList
  | .forKw => .token "for".toList
  | .inKw => .token "in".toList
  | .whileKw => .token "while".toList
  | .repeatKw => .token "repeat".toList
  | .ifKw => .token "if".toList
  | .elseKw => .token "else".toList
  | .nextKw => .token "next".toList
  | .breakKw => .token "break".toList
  | .trueKw => .token "true".toList
  | .falseKw => .token "false".toList
  | .nullKw => .token "null".toList
  | .infKw => .token "inf".toList
  | .nanKw => .token "nan".toList
  | .naLogicalKw => .token "na_logical".toList
  | .naIntegerKw => .token "na_integer".toList
  | .naDoubleKw => .token "na_double".toList
  | .naComplexKw => .token "na_complex".toList
  | .naCharacterKw => .token "na_character".toList
  | .rIntegerLiteral => .token "r_integer_literal".toList
  | .rDoubleLiteral => .token "r_double_literal".toList
  | .rComplexLiteral => .token "r_complex_literal".toList
  | .newline => .token "newline".toList
  | .whitespace => .token "whitespace".toList
  | .ident => .token "ident".toList
  | .comment => .token "comment".toList
  | .dotdoti => .token "dotdoti".toList
  | .special => .token "special".toList
  | .stringOpen => .token "string_open".toList
  | .stringContent => .token "string_content".toList
  | .stringClose => .token "string_close".toList
  | .rRoot => .node "RRoot".toList
  | .rIdentifier => .node "RIdentifier".toList
  | .rDots => .node "RDots".toList
  | .rDotDotI => .node "RDotDotI".toList
  | .rUnaryExpression => .node "RUnaryExpression".toList
  | .rBinaryExpression => .node "RBinaryExpression".toList
  | .rExtractExpression => .node "RExtractExpression".toList
  | .rNamespaceExpression => .node "RNamespaceExpression".toList
  | .rFunctionDefinition => .node "RFunctionDefinition".toList
  | .rParameters => .node "RParameters".toList
  | .rParameterList => .node "RParameterList".toList
  | .rParameter => .node "RParameter".toList
  | .rParameterDefault => .node "RParameterDefault".toList
  | .rIfStatement => .node "RIfStatement".toList
  | .rElseClause => .node "RElseClause".toList
  | .rForStatement => .node "RForStatement".toList
  | .rWhileStatement => .node "RWhileStatement".toList
  | .rRepeatStatement => .node "RRepeatStatement".toList
  | .rBracedExpressions => .node "RBracedExpressions".toList
  | .rParenthesizedExpression => .node "RParenthesizedExpression".toList
  | .rCall => .node "RCall".toList
  | .rCallArguments => .node "RCallArguments".toList
  | .rSubset => .node "RSubset".toList
  | .rSubsetArguments => .node "RSubsetArguments".toList
  | .rSubset2 => .node "RSubset2".toList
  | .rSubset2Arguments => .node "RSubset2Arguments".toList
  | .rArgumentList => .node "RArgumentList".toList
  | .rArgument => .node "RArgument".toList
  | .rArgumentNameClause => .node "RArgumentNameClause".toList
  | .rExpressionList => .node "RExpressionList".toList
  | .rIntegerValue => .node "RIntegerValue".toList
  | .rDoubleValue => .node "RDoubleValue".toList
  | .rComplexValue => .node "RComplexValue".toList
  | .rStringValue => .node "RStringValue".toList
  | .rNextExpression => .node "RNextExpression".toList
  | .rBreakExpression => .node "RBreakExpression".toList
  | .rTrueExpression => .node "RTrueExpression".toList
  | .rFalseExpression => .node "RFalseExpression".toList
  | .rNullExpression => .node "RNullExpression".toList
  | .rInfExpression => .node "RInfExpression".toList
  | .rNanExpression => .node "RNanExpression".toList
  | .rNaExpression => .node "RNaExpression".toList
  | .rBogus => .node "RBogus".toList
  | .rBogusValue => .node "RBogusValue".toList
  | .rBogusExpression => .node "RBogusExpression".toList
  | .last => .token "__last".toList

end Verif.Ungrammar
