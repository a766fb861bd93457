import Verif.Model.Parser

/-!
# Names of node kinds

The tables between names used by tree-sitter-r and kinds of the syntax tree.
-/

namespace Verif.Parser

open Syntax

/-- The table of `node_syntax_kind` (`crates/air_r_parser/src/treesitter.rs:87-183`). -/
def nodeKinds : List (String × Kind) :=
  [
   ("program", .rRoot), ("unary_operator", .rUnaryExpression),
   ("binary_operator", .rBinaryExpression), ("extract_operator", .rExtractExpression),
   ("namespace_operator", .rNamespaceExpression), ("function_definition", .rFunctionDefinition),
   ("parameters", .rParameters), ("parameter", .rParameter), ("if_statement", .rIfStatement),
   ("for_statement", .rForStatement), ("while_statement", .rWhileStatement),
   ("repeat_statement", .rRepeatStatement), ("braced_expression", .rBracedExpressions),
   ("parenthesized_expression", .rParenthesizedExpression), ("call", .rCall),
   ("subset", .rSubset), ("subset2", .rSubset2), ("argument", .rArgument),
   ("identifier", .rIdentifier), ("integer", .rIntegerValue), ("float", .rDoubleValue),
   ("complex", .rComplexValue), ("string", .rStringValue), ("string_open", .stringOpen),
   ("string_content", .stringContent), ("string_close", .stringClose),
   ("next", .rNextExpression), ("break", .rBreakExpression), ("true", .rTrueExpression),
   ("false", .rFalseExpression), ("null", .rNullExpression), ("inf", .rInfExpression),
   ("nan", .rNanExpression), ("na", .rNaExpression), ("NA", .naLogicalKw),
   ("NA_integer_", .naIntegerKw), ("NA_real_", .naDoubleKw), ("NA_complex_", .naComplexKw),
   ("NA_character_", .naCharacterKw), ("{", .lCurly), ("}", .rCurly), ("[", .lBrack),
   ("]", .rBrack), ("[[", .lBrack2), ("]]", .rBrack2), ("(", .lParen), (")", .rParen),
   ("?", .wat), ("~", .tilde), ("<-", .assign), ("<<-", .superAssign), (":=", .walrus),
   ("->", .assignRight), ("->>", .superAssignRight), ("=", .equal), ("|", .orOp), ("&", .andOp),
   ("||", .or2), ("&&", .and2), ("<", .lessThan), ("<=", .lessThanOrEqualTo),
   (">", .greaterThan), (">=", .greaterThanOrEqualTo), ("==", .equal2), ("!=", .notEqual),
   ("+", .plus), ("-", .minus), ("*", .multiply), ("/", .divide), ("^", .exponentiate),
   ("**", .exponentiate2), ("|>", .pipe), ("special", .special), (":", .colon), ("::", .colon2),
   (":::", .colon3), ("$", .dollar), ("@", .atSign), ("!", .bang), ("function", .functionKw),
   ("\\", .backslash), ("if", .ifKw), ("else", .elseKw), ("for", .forKw), ("in", .inKw),
   ("while", .whileKw), ("repeat", .repeatKw), ("comma", .comma), ("dots", .rDots),
   ("dot_dot_i", .rDotDotI), ("comment", .comment)]

/-- `node_syntax_kind`; any other name panics. (crates/air_r_parser/src/treesitter.rs:89-183) -/
def nodeSyntaxKind (name : String) : Option Kind := nodeKinds.lookup name

/-- The table of `RSyntaxKind::to_string` (`crates/air_r_syntax/src/generated/kind.rs:224-289`). -/
def kindTexts : List (Kind × String) :=
  [
   (.semicolon, ";"), (.comma, ","), (.lCurly, "{"), (.rCurly, "}"), (.lBrack, "["),
   (.rBrack, "]"), (.lBrack2, "[["), (.rBrack2, "]]"), (.lParen, "("), (.rParen, ")"),
   (.wat, "?"), (.tilde, "~"), (.assign, "<-"), (.superAssign, "<<-"), (.walrus, ":="),
   (.assignRight, "->"), (.superAssignRight, "->>"), (.equal, "="), (.orOp, "|"), (.andOp, "&"),
   (.or2, "||"), (.and2, "&&"), (.lessThan, "<"), (.lessThanOrEqualTo, "<="),
   (.greaterThan, ">"), (.greaterThanOrEqualTo, ">="), (.equal2, "=="), (.notEqual, "!="),
   (.plus, "+"), (.minus, "-"), (.multiply, "*"), (.divide, "/"), (.exponentiate, "^"),
   (.exponentiate2, "**"), (.pipe, "|>"), (.colon, ":"), (.colon2, "::"), (.colon3, ":::"),
   (.dollar, "$"), (.atSign, "@"), (.bang, "!"), (.dots, "..."), (.backslash, "\\"),
   (.functionKw, "function"), (.forKw, "for"), (.inKw, "in"), (.whileKw, "while"),
   (.repeatKw, "repeat"), (.ifKw, "if"), (.elseKw, "else"), (.nextKw, "next"),
   (.breakKw, "break"), (.trueKw, "true"), (.falseKw, "false"), (.nullKw, "null"),
   (.infKw, "inf"), (.nanKw, "nan"), (.naLogicalKw, "na_logical"), (.naIntegerKw, "na_integer"),
   (.naDoubleKw, "na_double"), (.naComplexKw, "na_complex"), (.naCharacterKw, "na_character"),
   (.rStringValue, "string value")]

end Verif.Parser
