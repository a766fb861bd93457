import Verif.Model.RGrammar
import Verif.Spec.Ungrammar

/-!
# The text of the grammar of R

xtask/codegen/r.ungram, line by line.
-/

namespace Verif.Ungrammar

open Lean in
/-- The characters of a line, as a list. (notation for xtask/codegen/r.ungram) -/
macro "c!" s:str : term => do
  let cs := s.getString.toList.toArray.map fun c => Syntax.mkCharLit c
  `([$cs,*])

/-- The text of r.ungram (xtask/codegen/r.ungram:1-355). -/
def rText : List Char :=
  ([c!"// R Un-Grammar.",
   c!"//",
   c!"// This grammar specifies the structure of R's concrete syntax tree.",
   c!"// It does not specify parsing rules (ambiguities, precedence, etc are out of scope).",
   c!"// Tokens are processed -- contextual keywords are recognised, compound operators glued.",
   c!"//",
   c!"// Legend:",
   c!"//",
   c!"//   //                          -- comment",
   c!"//   Name =                      -- non-terminal definition",
   c!"//   'ident'                     -- token (terminal)",
   c!"//   A B                         -- sequence",
   c!"//   A | B                       -- alternation",
   c!"//   A*                          -- zero or more repetition",
   c!"//   (A (',' A)* ','?)            -- repetition of node A separated by ',' and allowing a trailing comma",
   c!"//   (A (',' A)*)                -- repetition of node A separated by ',' without a trailing comma",
   c!"//   A?                          -- zero or one repetition",
   c!"//   (A)                         -- same as A",
   c!"//   label:A                     -- suggested name for field of AST node",
   c!"",
   c!"// NOTES",
   c!"//",
   c!"// - SyntaxNode, SyntaxToken and SyntaxElement will be stripped from the codegen",
   c!"// - Bogus nodes are special nodes used to keep track of broken code; they are",
   c!"//   not part of the grammar but they will appear inside the green tree",
   c!"",
   c!"// ----------------------------------------------------------------",
   c!"// Initial",
   c!"",
   c!"SyntaxElement = SyntaxElement",
   c!"",
   c!"// ----------------------------------------------------------------",
   c!"// Bogus",
   c!"",
   c!"RBogus = SyntaxElement*",
   c!"RBogusValue = SyntaxElement*",
   c!"RBogusExpression = SyntaxElement*",
   c!"",
   c!"// ----------------------------------------------------------------",
   c!"// Root",
   c!"",
   c!"RRoot =",
   c!"	bom: 'UNICODE_BOM'?",
   c!"	expressions: RExpressionList",
   c!"	eof: 'EOF'",
   c!"",
   c!"// ----------------------------------------------------------------",
   c!"// Operators",
   c!"",
   c!"RUnaryExpression =",
   c!"  operator: ('+' | '-' | '~' | '!' | '?')",
   c!"  argument: AnyRExpression",
   c!"",
   c!"RBinaryExpression =",
   c!"	left: AnyRExpression",
   c!"    operator: (",
   c!"		'?' |",
   c!"		':' |",
   c!"		'~' |",
   c!"",
   c!"		'<-' |",
   c!"		'<<-' |",
   c!"		':=' |",
   c!"		'->' |",
   c!"		'->>' |",
   c!"		'=' |",
   c!"",
   c!"		'|' |",
   c!"		'&' |",
   c!"		'||' |",
   c!"		'&&' |",
   c!"",
   c!"		'<' |",
   c!"		'<=' |",
   c!"		'>' |",
   c!"		'>=' |",
   c!"		'==' |",
   c!"		'!=' |",
   c!"",
   c!"		'+' |",
   c!"		'-' |",
   c!"		'*' |",
   c!"		'/' |",
   c!"",
   c!"		'^' |",
   c!"		'**' |",
   c!"",
   c!"		'|>' |",
   c!"		'special'",
   c!"	)",
   c!"	right: AnyRExpression",
   c!"",
   c!"// Binary expression that is restricted on the RHS",
   c!"RExtractExpression =",
   c!"	left: AnyRExpression",
   c!"	operator: ('$' | '@')",
   c!"	right: AnyRSelector",
   c!"",
   c!"// Binary expression that is restricted on both the LHS and RHS",
   c!"RNamespaceExpression =",
   c!"	left: AnyRSelector",
   c!"	operator: ('::' | ':::')",
   c!"	right: AnyRSelector",
   c!"",
   c!"AnyRSelector =",
   c!"	RIdentifier",
   c!"	| RStringValue",
   c!"	| RDots",
   c!"	| RDotDotI",
   c!"",
   c!"// ----------------------------------------------------------------",
   c!"// Function",
   c!"",
   c!"RFunctionDefinition =",
   c!"	name: ('function' | '\\\\')",
   c!"	parameters: RParameters",
   c!"	body: AnyRExpression",
   c!"",
   c!"RParameters =",
   c!"	'('",
   c!"	items: RParameterList",
   c!"	')'",
   c!"",
   c!"RParameterList = (RParameter (',' RParameter)*)",
   c!"",
   c!"RParameter =",
   c!"	name: AnyRParameterName",
   c!"	default: RParameterDefault?",
   c!"",
   c!"RParameterDefault =",
   c!"	'='",
   c!"	value: AnyRExpression",
   c!"",
   c!"AnyRParameterName =",
   c!"	RIdentifier",
   c!"	| RDots",
   c!"	| RDotDotI",
   c!"",
   c!"// ----------------------------------------------------------------",
   c!"// If statement",
   c!"",
   c!"RIfStatement =",
   c!"	'if'",
   c!"	'('",
   c!"	condition: AnyRExpression",
   c!"	')'",
   c!"	consequence: AnyRExpression",
   c!"	else_clause: RElseClause?",
   c!"",
   c!"RElseClause =",
   c!"	'else'",
   c!"	alternative: AnyRExpression",
   c!"",
   c!"// ----------------------------------------------------------------",
   c!"// For statement",
   c!"",
   c!"RForStatement =",
   c!"	'for'",
   c!"	'('",
   c!"	variable: RIdentifier",
   c!"	'in'",
   c!"	sequence: AnyRExpression",
   c!"	')'",
   c!"	body: AnyRExpression",
   c!"",
   c!"// ----------------------------------------------------------------",
   c!"// While statement",
   c!"",
   c!"RWhileStatement =",
   c!"	'while'",
   c!"	'('",
   c!"	condition: AnyRExpression",
   c!"	')'",
   c!"	body: AnyRExpression",
   c!"",
   c!"// ----------------------------------------------------------------",
   c!"// Repeat statement",
   c!"",
   c!"RRepeatStatement =",
   c!"	'repeat'",
   c!"	body: AnyRExpression",
   c!"",
   c!"// ----------------------------------------------------------------",
   c!"// Braced expressions",
   c!"",
   c!"RBracedExpressions =",
   c!"	'{'",
   c!"	expressions: RExpressionList",
   c!"	'}'",
   c!"",
   c!"// ----------------------------------------------------------------",
   c!"// Parenthesized expressions",
   c!"",
   c!"RParenthesizedExpression =",
   c!"	'('",
   c!"	body: AnyRExpression",
   c!"	')'",
   c!"",
   c!"// ----------------------------------------------------------------",
   c!"// Call / Subset / Subset2",
   c!"",
   c!"RCall =",
   c!"	function: AnyRExpression",
   c!"	arguments: RCallArguments",
   c!"",
   c!"RCallArguments =",
   c!"	'('",
   c!"	items: RArgumentList",
   c!"	')'",
   c!"",
   c!"RSubset =",
   c!"	function: AnyRExpression",
   c!"	arguments: RSubsetArguments",
   c!"",
   c!"RSubsetArguments =",
   c!"	'['",
   c!"	items: RArgumentList",
   c!"	']'",
   c!"",
   c!"RSubset2 =",
   c!"	function: AnyRExpression",
   c!"	arguments: RSubset2Arguments",
   c!"",
   c!"RSubset2Arguments =",
   c!"	'[['",
   c!"	items: RArgumentList",
   c!"	']]'",
   c!"",
   c!"// We want to allow:",
   c!"// - Any number of sequential commas",
   c!"// - But two arguments must be separated by at least 1 comma",
   c!"//",
   c!"// We implement this by allowing both the `name_clause` and",
   c!"// the `value` to be optional. In the parser, when we see a",
   c!"// hole we open an `RArgument` node and then immediately",
   c!"// close it without pushing any children.",
   c!"//",
   c!"// # Allowed",
   c!"// fn()",
   c!"// fn(,)",
   c!"// fn(,,)",
   c!"// fn(a)",
   c!"// fn(a, b)",
   c!"// fn(,,a,,b,,)",
   c!"// fn(a, # comment_between_commas",
   c!"// ,)",
   c!"//",
   c!"// # Not allowed",
   c!"// fn(a b)",
   c!"RArgumentList = (RArgument (',' RArgument)*)",
   c!"",
   c!"RArgument =",
   c!"	name_clause: RArgumentNameClause?",
   c!"	value: AnyRExpression?",
   c!"",
   c!"RArgumentNameClause =",
   c!"	name: AnyRArgumentName",
   c!"	'='",
   c!"",
   c!"AnyRArgumentName =",
   c!"	RIdentifier",
   c!"	| RStringValue",
   c!"	| RDots",
   c!"	| RDotDotI",
   c!"	| RNullExpression",
   c!"",
   c!"// ----------------------------------------------------------------",
   c!"// Expression",
   c!"",
   c!"RExpressionList = AnyRExpression*",
   c!"",
   c!"AnyRExpression =",
   c!"	AnyRValue",
   c!"	| RIdentifier",
   c!"	| RUnaryExpression",
   c!"	| RBinaryExpression",
   c!"	| RExtractExpression",
   c!"    | RNamespaceExpression",
   c!"	| RFunctionDefinition",
   c!"	| RIfStatement",
   c!"	| RForStatement",
   c!"	| RWhileStatement",
   c!"	| RRepeatStatement",
   c!"	| RBracedExpressions",
   c!"	| RParenthesizedExpression",
   c!"	| RCall",
   c!"	| RSubset",
   c!"	| RSubset2",
   c!"	| RNextExpression",
   c!"	| RBreakExpression",
   c!"	| RTrueExpression",
   c!"	| RFalseExpression",
   c!"	| RNullExpression",
   c!"	| RInfExpression",
   c!"	| RNanExpression",
   c!"	| RNaExpression",
   c!"	| RDots",
   c!"	| RDotDotI",
   c!"	| RBogusExpression",
   c!"",
   c!"// ----------------------------------------------------------------",
   c!"// Value",
   c!"",
   c!"AnyRValue =",
   c!"	RIntegerValue",
   c!"	| RDoubleValue",
   c!"	| RComplexValue",
   c!"	| RStringValue",
   c!"	| RBogusValue",
   c!"",
   c!"RIntegerValue = value: 'r_integer_literal'",
   c!"RDoubleValue = value: 'r_double_literal'",
   c!"RComplexValue = value: 'r_complex_literal'",
   c!"RStringValue =",
   c!"  open: 'string_open'",
   c!"  content: 'string_content'?",
   c!"  close: 'string_close'",
   c!"",
   c!"// ----------------------------------------------------------------",
   c!"// Keywords",
   c!"",
   c!"RNextExpression = 'next'",
   c!"",
   c!"RBreakExpression = 'break'",
   c!"",
   c!"RTrueExpression = 'true'",
   c!"",
   c!"RFalseExpression = 'false'",
   c!"",
   c!"RNullExpression = 'null'",
   c!"",
   c!"RInfExpression = 'inf'",
   c!"",
   c!"RNanExpression = 'nan'",
   c!"",
   c!"RNaExpression =",
   c!"	value: (",
   c!"		'na_logical'",
   c!"		| 'na_integer'",
   c!"		| 'na_double'",
   c!"		| 'na_complex'",
   c!"		| 'na_character'",
   c!"	)",
   c!"",
   c!"// ----------------------------------------------------------------",
   c!"// Dots",
   c!"",
   c!"RDots = value: '...'",
   c!"",
   c!"RDotDotI = value: 'dotdoti'",
   c!"",
   c!"// ----------------------------------------------------------------",
   c!"// Identifier",
   c!"",
   c!"RIdentifier = name: 'ident'"] : List (List Char)).flatMap (· ++ ['\n'])

end Verif.Ungrammar
