import Verif.Model.RGrammar
import Verif.Model.KindTables

/-!
# The generator of kinds

xtask/codegen/src/generate_syntax_kinds.rs, with what it generates from (xtask/codegen/src/r_kinds_src.rs), and the generated macro
`map_syntax_node` (xtask/codegen/src/generate_macros.rs).
-/

namespace Verif.Ungrammar

/-- `KindsSrc` (xtask/codegen/src/kind_src.rs:5-20). -/
structure KindsSrc where
  punct : List (Name × Name)
  keywords : List Name
  literals : List Name
  tokens : List Name
  nodes : List Name

/-- `R_KINDS_SRC` (xtask/codegen/src/r_kinds_src.rs:3-130). -/
def rKindsSrc : KindsSrc where
  punct := (
    [(";", "SEMICOLON"), (",", "COMMA"), ("{", "L_CURLY"), ("}", "R_CURLY"), ("[", "L_BRACK"),
     ("]", "R_BRACK"), ("[[", "L_BRACK2"), ("]]", "R_BRACK2"), ("(", "L_PAREN"), (")", "R_PAREN"),
     ("?", "WAT"), ("~", "TILDE"), ("<-", "ASSIGN"), ("<<-", "SUPER_ASSIGN"), (":=", "WALRUS"),
     ("->", "ASSIGN_RIGHT"), ("->>", "SUPER_ASSIGN_RIGHT"), ("=", "EQUAL"), ("|", "OR"), ("&", "AND"),
     ("||", "OR2"), ("&&", "AND2"), ("<", "LESS_THAN"), ("<=", "LESS_THAN_OR_EQUAL_TO"),
     (">", "GREATER_THAN"), (">=", "GREATER_THAN_OR_EQUAL_TO"), ("==", "EQUAL2"), ("!=", "NOT_EQUAL"),
     ("+", "PLUS"), ("-", "MINUS"), ("*", "MULTIPLY"), ("/", "DIVIDE"), ("^", "EXPONENTIATE"),
     ("**", "EXPONENTIATE2"), ("|>", "PIPE"), (":", "COLON"), ("::", "COLON2"), (":::", "COLON3"),
     ("$", "DOLLAR"), ("@", "AT"), ("!", "BANG"), ("...", "DOTS"), ("\\", "BACKSLASH")] : List (String × String)).map
     fun (a, b) => (a.toList, b.toList)
  keywords := (
    ["function", "for", "in", "while", "repeat", "if", "else", "next", "break", "true", "false", "null",
     "inf", "nan", "na_logical", "na_integer", "na_double", "na_complex", "na_character"] : List String).map String.toList
  literals := (
    ["R_INTEGER_LITERAL", "R_DOUBLE_LITERAL", "R_COMPLEX_LITERAL"] : List String).map String.toList
  tokens := (
    ["NEWLINE", "WHITESPACE", "IDENT", "COMMENT", "DOTDOTI", "SPECIAL", "STRING_OPEN", "STRING_CONTENT",
     "STRING_CLOSE"] : List String).map String.toList
  nodes := (
    ["R_ROOT", "R_IDENTIFIER", "R_DOTS", "R_DOT_DOT_I", "R_UNARY_EXPRESSION", "R_BINARY_EXPRESSION",
     "R_EXTRACT_EXPRESSION", "R_NAMESPACE_EXPRESSION", "R_FUNCTION_DEFINITION", "R_PARAMETERS",
     "R_PARAMETER_LIST", "R_PARAMETER", "R_PARAMETER_DEFAULT", "R_IF_STATEMENT", "R_ELSE_CLAUSE",
     "R_FOR_STATEMENT", "R_WHILE_STATEMENT", "R_REPEAT_STATEMENT", "R_BRACED_EXPRESSIONS",
     "R_PARENTHESIZED_EXPRESSION", "R_CALL", "R_CALL_ARGUMENTS", "R_SUBSET", "R_SUBSET_ARGUMENTS",
     "R_SUBSET2", "R_SUBSET2_ARGUMENTS", "R_ARGUMENT_LIST", "R_ARGUMENT", "R_ARGUMENT_NAME_CLAUSE",
     "R_EXPRESSION_LIST", "R_INTEGER_VALUE", "R_DOUBLE_VALUE", "R_COMPLEX_VALUE", "R_STRING_VALUE",
     "R_NEXT_EXPRESSION", "R_BREAK_EXPRESSION", "R_TRUE_EXPRESSION", "R_FALSE_EXPRESSION",
     "R_NULL_EXPRESSION", "R_INF_EXPRESSION", "R_NAN_EXPRESSION", "R_NA_EXPRESSION", "R_BOGUS",
     "R_BOGUS_VALUE", "R_BOGUS_EXPRESSION"] : List String).map String.toList

/-- `Case::Constant.convert` (biome_string_case, external; xtask/codegen/src/generate_syntax_kinds.rs:59). Simplified: every
upper case letter but the first begins a word; this is so for all names given to it here. -/
def constantCase (n : Name) : Name :=
  (n.take 1 ++ (n.drop 1).flatMap fun c => if c.isUpper then ['_', c] else [c]).map Char.toUpper

/-- The name of a keyword without `-`, and with a prefix if it is in upper case (generate_syntax_kinds.rs:44-55). -/
def keywordValue (kw : Name) : Name :=
  let kw := kw.map fun c => if c = '-' then '_' else c
  if kw.all Char.isUpper then "UPPER_".toList ++ kw else kw

/-- The variant for a keyword (generate_syntax_kinds.rs:57-60). -/
def keywordKind (kw : Name) : Name := constantCase (keywordValue kw) ++ "_KW".toList

/-- What the generated file consists of. (generate_syntax_kinds.rs:105-188) -/
structure KindsFile where
  /-- The variants of the enumeration, in order. -/
  variants : List Name
  isPunct : List Name
  isLiteral : List Name
  isList : List Name
  /-- The arms of `from_keyword`. -/
  fromKeyword : List (Name × Name)
  /-- The arms of `to_string`. -/
  texts : List (Name × Name)
  /-- The arms of the macro `T!`; how punctuation is written there is left out. -/
  macroArms : List (Name × Name)

/-- `generate_syntax_kinds` (generate_syntax_kinds.rs:8-188). -/
def generateKinds (src : KindsSrc) : KindsFile where
  variants := ["TOMBSTONE".toList, "EOF".toList, "UNICODE_BOM".toList] ++ src.punct.map Prod.snd ++ src.keywords.map keywordKind ++
    src.literals ++ src.tokens ++ src.nodes ++ ["__LAST".toList]
  isPunct := src.punct.map Prod.snd
  isLiteral := src.literals
  isList := src.nodes.filter fun n => "_LIST".toList.isSuffixOf n
  fromKeyword := src.keywords.map fun kw => (kw, keywordKind kw)
  texts := src.punct.map (fun p => (p.2, p.1)) ++ src.keywords.map (fun kw => (keywordKind kw, kw)) ++
    [("R_STRING_VALUE".toList, "string value".toList)]
  macroArms := src.punct ++ src.keywords.map (fun kw => (keywordValue kw, keywordKind kw)) ++
    [("ident".toList, "IDENT".toList), ("EOF".toList, "EOF".toList), ("UNICODE_BOM".toList, "UNICODE_BOM".toList),
     ("#".toList, "HASH".toList)]

/-- The names of the variants (crates/air_r_syntax/src/generated/kind.rs:8-137). -/
def variantName : Syntax.Kind → Name
  | .tombstone => "TOMBSTONE".toList
  | .eof => "EOF".toList
  | .unicodeBom => "UNICODE_BOM".toList
  | .semicolon => "SEMICOLON".toList
  | .comma => "COMMA".toList
  | .lCurly => "L_CURLY".toList
  | .rCurly => "R_CURLY".toList
  | .lBrack => "L_BRACK".toList
  | .rBrack => "R_BRACK".toList
  | .lBrack2 => "L_BRACK2".toList
  | .rBrack2 => "R_BRACK2".toList
  | .lParen => "L_PAREN".toList
  | .rParen => "R_PAREN".toList
  | .wat => "WAT".toList
  | .tilde => "TILDE".toList
  | .assign => "ASSIGN".toList
  | .superAssign => "SUPER_ASSIGN".toList
  | .walrus => "WALRUS".toList
  | .assignRight => "ASSIGN_RIGHT".toList
  | .superAssignRight => "SUPER_ASSIGN_RIGHT".toList
  | .equal => "EQUAL".toList
  | .orOp => "OR".toList
  | .andOp => "AND".toList
  | .or2 => "OR2".toList
  | .and2 => "AND2".toList
  | .lessThan => "LESS_THAN".toList
  | .lessThanOrEqualTo => "LESS_THAN_OR_EQUAL_TO".toList
  | .greaterThan => "GREATER_THAN".toList
  | .greaterThanOrEqualTo => "GREATER_THAN_OR_EQUAL_TO".toList
  | .equal2 => "EQUAL2".toList
  | .notEqual => "NOT_EQUAL".toList
  | .plus => "PLUS".toList
  | .minus => "MINUS".toList
  | .multiply => "MULTIPLY".toList
  | .divide => "DIVIDE".toList
  | .exponentiate => "EXPONENTIATE".toList
  | .exponentiate2 => "EXPONENTIATE2".toList
  | .pipe => "PIPE".toList
  | .colon => "COLON".toList
  | .colon2 => "COLON2".toList
  | .colon3 => "COLON3".toList
  | .dollar => "DOLLAR".toList
  | .atSign => "AT".toList
  | .bang => "BANG".toList
  | .dots => "DOTS".toList
  | .backslash => "BACKSLASH".toList
  | .functionKw => "FUNCTION_KW".toList
  | .forKw => "FOR_KW".toList
  | .inKw => "IN_KW".toList
  | .whileKw => "WHILE_KW".toList
  | .repeatKw => "REPEAT_KW".toList
  | .ifKw => "IF_KW".toList
  | .elseKw => "ELSE_KW".toList
  | .nextKw => "NEXT_KW".toList
  | .breakKw => "BREAK_KW".toList
  | .trueKw => "TRUE_KW".toList
  | .falseKw => "FALSE_KW".toList
  | .nullKw => "NULL_KW".toList
  | .infKw => "INF_KW".toList
  | .nanKw => "NAN_KW".toList
  | .naLogicalKw => "NA_LOGICAL_KW".toList
  | .naIntegerKw => "NA_INTEGER_KW".toList
  | .naDoubleKw => "NA_DOUBLE_KW".toList
  | .naComplexKw => "NA_COMPLEX_KW".toList
  | .naCharacterKw => "NA_CHARACTER_KW".toList
  | .rIntegerLiteral => "R_INTEGER_LITERAL".toList
  | .rDoubleLiteral => "R_DOUBLE_LITERAL".toList
  | .rComplexLiteral => "R_COMPLEX_LITERAL".toList
  | .newline => "NEWLINE".toList
  | .whitespace => "WHITESPACE".toList
  | .ident => "IDENT".toList
  | .comment => "COMMENT".toList
  | .dotdoti => "DOTDOTI".toList
  | .special => "SPECIAL".toList
  | .stringOpen => "STRING_OPEN".toList
  | .stringContent => "STRING_CONTENT".toList
  | .stringClose => "STRING_CLOSE".toList
  | .rRoot => "R_ROOT".toList
  | .rIdentifier => "R_IDENTIFIER".toList
  | .rDots => "R_DOTS".toList
  | .rDotDotI => "R_DOT_DOT_I".toList
  | .rUnaryExpression => "R_UNARY_EXPRESSION".toList
  | .rBinaryExpression => "R_BINARY_EXPRESSION".toList
  | .rExtractExpression => "R_EXTRACT_EXPRESSION".toList
  | .rNamespaceExpression => "R_NAMESPACE_EXPRESSION".toList
  | .rFunctionDefinition => "R_FUNCTION_DEFINITION".toList
  | .rParameters => "R_PARAMETERS".toList
  | .rParameterList => "R_PARAMETER_LIST".toList
  | .rParameter => "R_PARAMETER".toList
  | .rParameterDefault => "R_PARAMETER_DEFAULT".toList
  | .rIfStatement => "R_IF_STATEMENT".toList
  | .rElseClause => "R_ELSE_CLAUSE".toList
  | .rForStatement => "R_FOR_STATEMENT".toList
  | .rWhileStatement => "R_WHILE_STATEMENT".toList
  | .rRepeatStatement => "R_REPEAT_STATEMENT".toList
  | .rBracedExpressions => "R_BRACED_EXPRESSIONS".toList
  | .rParenthesizedExpression => "R_PARENTHESIZED_EXPRESSION".toList
  | .rCall => "R_CALL".toList
  | .rCallArguments => "R_CALL_ARGUMENTS".toList
  | .rSubset => "R_SUBSET".toList
  | .rSubsetArguments => "R_SUBSET_ARGUMENTS".toList
  | .rSubset2 => "R_SUBSET2".toList
  | .rSubset2Arguments => "R_SUBSET2_ARGUMENTS".toList
  | .rArgumentList => "R_ARGUMENT_LIST".toList
  | .rArgument => "R_ARGUMENT".toList
  | .rArgumentNameClause => "R_ARGUMENT_NAME_CLAUSE".toList
  | .rExpressionList => "R_EXPRESSION_LIST".toList
  | .rIntegerValue => "R_INTEGER_VALUE".toList
  | .rDoubleValue => "R_DOUBLE_VALUE".toList
  | .rComplexValue => "R_COMPLEX_VALUE".toList
  | .rStringValue => "R_STRING_VALUE".toList
  | .rNextExpression => "R_NEXT_EXPRESSION".toList
  | .rBreakExpression => "R_BREAK_EXPRESSION".toList
  | .rTrueExpression => "R_TRUE_EXPRESSION".toList
  | .rFalseExpression => "R_FALSE_EXPRESSION".toList
  | .rNullExpression => "R_NULL_EXPRESSION".toList
  | .rInfExpression => "R_INF_EXPRESSION".toList
  | .rNanExpression => "R_NAN_EXPRESSION".toList
  | .rNaExpression => "R_NA_EXPRESSION".toList
  | .rBogus => "R_BOGUS".toList
  | .rBogusValue => "R_BOGUS_VALUE".toList
  | .rBogusExpression => "R_BOGUS_EXPRESSION".toList
  | .last => "__LAST".toList

/-- The arms of `map_syntax_node`: the kind of a node, and the type it is taken for without a check. Other kinds are `unreachable!`.
(crates/air_r_syntax/src/generated/macros.rs:15-204) -/
def dispatchArms : List (Syntax.Kind × Name) :=
  [(.rArgument, "RArgument".toList),
   (.rArgumentNameClause, "RArgumentNameClause".toList),
   (.rBinaryExpression, "RBinaryExpression".toList),
   (.rBracedExpressions, "RBracedExpressions".toList),
   (.rBreakExpression, "RBreakExpression".toList),
   (.rCall, "RCall".toList),
   (.rCallArguments, "RCallArguments".toList),
   (.rComplexValue, "RComplexValue".toList),
   (.rDotDotI, "RDotDotI".toList),
   (.rDots, "RDots".toList),
   (.rDoubleValue, "RDoubleValue".toList),
   (.rElseClause, "RElseClause".toList),
   (.rExtractExpression, "RExtractExpression".toList),
   (.rFalseExpression, "RFalseExpression".toList),
   (.rForStatement, "RForStatement".toList),
   (.rFunctionDefinition, "RFunctionDefinition".toList),
   (.rIdentifier, "RIdentifier".toList),
   (.rIfStatement, "RIfStatement".toList),
   (.rInfExpression, "RInfExpression".toList),
   (.rIntegerValue, "RIntegerValue".toList),
   (.rNaExpression, "RNaExpression".toList),
   (.rNamespaceExpression, "RNamespaceExpression".toList),
   (.rNanExpression, "RNanExpression".toList),
   (.rNextExpression, "RNextExpression".toList),
   (.rNullExpression, "RNullExpression".toList),
   (.rParameter, "RParameter".toList),
   (.rParameterDefault, "RParameterDefault".toList),
   (.rParameters, "RParameters".toList),
   (.rParenthesizedExpression, "RParenthesizedExpression".toList),
   (.rRepeatStatement, "RRepeatStatement".toList),
   (.rRoot, "RRoot".toList),
   (.rStringValue, "RStringValue".toList),
   (.rSubset, "RSubset".toList),
   (.rSubset2, "RSubset2".toList),
   (.rSubset2Arguments, "RSubset2Arguments".toList),
   (.rSubsetArguments, "RSubsetArguments".toList),
   (.rTrueExpression, "RTrueExpression".toList),
   (.rUnaryExpression, "RUnaryExpression".toList),
   (.rWhileStatement, "RWhileStatement".toList),
   (.rBogus, "RBogus".toList),
   (.rBogusExpression, "RBogusExpression".toList),
   (.rBogusValue, "RBogusValue".toList),
   (.rArgumentList, "RArgumentList".toList),
   (.rExpressionList, "RExpressionList".toList),
   (.rParameterList, "RParameterList".toList)]

/-- The arms that are generated for a grammar: nodes, bogus nodes, lists (xtask/codegen/src/generate_macros.rs:11-31); names of kinds
are made of the names of nodes. -/
def generateArms (ast : List (Name × Def)) : List (Name × Name) :=
  let pick (p : Def → Bool) := (ast.filter fun d => p d.2).map fun d => (constantCase d.1, d.1)
  pick (fun | .node _ _ => true | _ => false) ++ pick (fun | .bogus => true | _ => false) ++
    pick (fun | .list _ _ => true | _ => false)

end Verif.Ungrammar
