import Verif.Model.RGrammar

/-!
# The parts of nodes by name

crates/air_r_syntax/src/generated/nodes.rs and nodes_mut.rs, crates/air_r_factory/src/generated/node_factory.rs. The tables were
extracted from these files by a script.
-/

namespace Verif.Ungrammar

open Verif.Syntax (Slot)

/-- The functions of `support` (biome_rowan, external; crates/air_r_syntax/src/generated/nodes.rs:13-18). -/
inductive Access
  | node | requiredNode | token | requiredToken | list
  deriving DecidableEq

/-- A method that returns a part of a node: the body is a call of a function of `support` with the number of the slot. Tokens
have the type `SyntaxToken`. (nodes.rs:19-1700) -/
structure Accessor where
  name : Name
  slot : Nat
  how : Access
  ty : Name
  deriving DecidableEq

/-- The accessors of all nodes. (crates/air_r_syntax/src/generated/nodes.rs:19-1700) -/
def accessors : Syntax.Kind → List Accessor
  | .rArgument => [⟨"name_clause".toList, 0, .node, "RArgumentNameClause".toList⟩, ⟨"value".toList, 1, .node,
      "AnyRExpression".toList⟩]
  | .rArgumentNameClause => [⟨"name".toList, 0, .requiredNode, "AnyRArgumentName".toList⟩, ⟨"eq_token".toList, 1,
      .requiredToken, "SyntaxToken".toList⟩]
  | .rBinaryExpression => [⟨"left".toList, 0, .requiredNode, "AnyRExpression".toList⟩, ⟨"operator".toList, 1,
      .requiredToken, "SyntaxToken".toList⟩, ⟨"right".toList, 2, .requiredNode, "AnyRExpression".toList⟩]
  | .rBracedExpressions => [⟨"l_curly_token".toList, 0, .requiredToken, "SyntaxToken".toList⟩, ⟨"expressions".toList, 1,
      .list, "RExpressionList".toList⟩, ⟨"r_curly_token".toList, 2, .requiredToken, "SyntaxToken".toList⟩]
  | .rBreakExpression => [⟨"break_token".toList, 0, .requiredToken, "SyntaxToken".toList⟩]
  | .rCall => [⟨"function".toList, 0, .requiredNode, "AnyRExpression".toList⟩, ⟨"arguments".toList, 1, .requiredNode,
      "RCallArguments".toList⟩]
  | .rCallArguments => [⟨"l_paren_token".toList, 0, .requiredToken, "SyntaxToken".toList⟩, ⟨"items".toList, 1, .list,
      "RArgumentList".toList⟩, ⟨"r_paren_token".toList, 2, .requiredToken, "SyntaxToken".toList⟩]
  | .rComplexValue => [⟨"value_token".toList, 0, .requiredToken, "SyntaxToken".toList⟩]
  | .rDotDotI => [⟨"value_token".toList, 0, .requiredToken, "SyntaxToken".toList⟩]
  | .rDots => [⟨"value_token".toList, 0, .requiredToken, "SyntaxToken".toList⟩]
  | .rDoubleValue => [⟨"value_token".toList, 0, .requiredToken, "SyntaxToken".toList⟩]
  | .rElseClause => [⟨"else_token".toList, 0, .requiredToken, "SyntaxToken".toList⟩, ⟨"alternative".toList, 1,
      .requiredNode, "AnyRExpression".toList⟩]
  | .rExtractExpression => [⟨"left".toList, 0, .requiredNode, "AnyRExpression".toList⟩, ⟨"operator".toList, 1,
      .requiredToken, "SyntaxToken".toList⟩, ⟨"right".toList, 2, .requiredNode, "AnyRSelector".toList⟩]
  | .rFalseExpression => [⟨"false_token".toList, 0, .requiredToken, "SyntaxToken".toList⟩]
  | .rForStatement => [⟨"for_token".toList, 0, .requiredToken, "SyntaxToken".toList⟩, ⟨"l_paren_token".toList, 1,
      .requiredToken, "SyntaxToken".toList⟩, ⟨"variable".toList, 2, .requiredNode, "RIdentifier".toList⟩,
      ⟨"in_token".toList, 3, .requiredToken, "SyntaxToken".toList⟩, ⟨"sequence".toList, 4, .requiredNode,
      "AnyRExpression".toList⟩, ⟨"r_paren_token".toList, 5, .requiredToken, "SyntaxToken".toList⟩, ⟨"body".toList, 6,
      .requiredNode, "AnyRExpression".toList⟩]
  | .rFunctionDefinition => [⟨"name".toList, 0, .requiredToken, "SyntaxToken".toList⟩, ⟨"parameters".toList, 1,
      .requiredNode, "RParameters".toList⟩, ⟨"body".toList, 2, .requiredNode, "AnyRExpression".toList⟩]
  | .rIdentifier => [⟨"name_token".toList, 0, .requiredToken, "SyntaxToken".toList⟩]
  | .rIfStatement => [⟨"if_token".toList, 0, .requiredToken, "SyntaxToken".toList⟩, ⟨"l_paren_token".toList, 1,
      .requiredToken, "SyntaxToken".toList⟩, ⟨"condition".toList, 2, .requiredNode, "AnyRExpression".toList⟩,
      ⟨"r_paren_token".toList, 3, .requiredToken, "SyntaxToken".toList⟩, ⟨"consequence".toList, 4, .requiredNode,
      "AnyRExpression".toList⟩, ⟨"else_clause".toList, 5, .node, "RElseClause".toList⟩]
  | .rInfExpression => [⟨"inf_token".toList, 0, .requiredToken, "SyntaxToken".toList⟩]
  | .rIntegerValue => [⟨"value_token".toList, 0, .requiredToken, "SyntaxToken".toList⟩]
  | .rNaExpression => [⟨"value".toList, 0, .requiredToken, "SyntaxToken".toList⟩]
  | .rNamespaceExpression => [⟨"left".toList, 0, .requiredNode, "AnyRSelector".toList⟩, ⟨"operator".toList, 1,
      .requiredToken, "SyntaxToken".toList⟩, ⟨"right".toList, 2, .requiredNode, "AnyRSelector".toList⟩]
  | .rNanExpression => [⟨"nan_token".toList, 0, .requiredToken, "SyntaxToken".toList⟩]
  | .rNextExpression => [⟨"next_token".toList, 0, .requiredToken, "SyntaxToken".toList⟩]
  | .rNullExpression => [⟨"null_token".toList, 0, .requiredToken, "SyntaxToken".toList⟩]
  | .rParameter => [⟨"name".toList, 0, .requiredNode, "AnyRParameterName".toList⟩, ⟨"default".toList, 1, .node,
      "RParameterDefault".toList⟩]
  | .rParameterDefault => [⟨"eq_token".toList, 0, .requiredToken, "SyntaxToken".toList⟩, ⟨"value".toList, 1, .requiredNode,
      "AnyRExpression".toList⟩]
  | .rParameters => [⟨"l_paren_token".toList, 0, .requiredToken, "SyntaxToken".toList⟩, ⟨"items".toList, 1, .list,
      "RParameterList".toList⟩, ⟨"r_paren_token".toList, 2, .requiredToken, "SyntaxToken".toList⟩]
  | .rParenthesizedExpression => [⟨"l_paren_token".toList, 0, .requiredToken, "SyntaxToken".toList⟩, ⟨"body".toList, 1,
      .requiredNode, "AnyRExpression".toList⟩, ⟨"r_paren_token".toList, 2, .requiredToken, "SyntaxToken".toList⟩]
  | .rRepeatStatement => [⟨"repeat_token".toList, 0, .requiredToken, "SyntaxToken".toList⟩, ⟨"body".toList, 1,
      .requiredNode, "AnyRExpression".toList⟩]
  | .rRoot => [⟨"bom_token".toList, 0, .token, "SyntaxToken".toList⟩, ⟨"expressions".toList, 1, .list,
      "RExpressionList".toList⟩, ⟨"eof_token".toList, 2, .requiredToken, "SyntaxToken".toList⟩]
  | .rStringValue => [⟨"open_token".toList, 0, .requiredToken, "SyntaxToken".toList⟩, ⟨"content_token".toList, 1, .token,
      "SyntaxToken".toList⟩, ⟨"close_token".toList, 2, .requiredToken, "SyntaxToken".toList⟩]
  | .rSubset => [⟨"function".toList, 0, .requiredNode, "AnyRExpression".toList⟩, ⟨"arguments".toList, 1, .requiredNode,
      "RSubsetArguments".toList⟩]
  | .rSubset2 => [⟨"function".toList, 0, .requiredNode, "AnyRExpression".toList⟩, ⟨"arguments".toList, 1, .requiredNode,
      "RSubset2Arguments".toList⟩]
  | .rSubset2Arguments => [⟨"l_brack2_token".toList, 0, .requiredToken, "SyntaxToken".toList⟩, ⟨"items".toList, 1, .list,
      "RArgumentList".toList⟩, ⟨"r_brack2_token".toList, 2, .requiredToken, "SyntaxToken".toList⟩]
  | .rSubsetArguments => [⟨"l_brack_token".toList, 0, .requiredToken, "SyntaxToken".toList⟩, ⟨"items".toList, 1, .list,
      "RArgumentList".toList⟩, ⟨"r_brack_token".toList, 2, .requiredToken, "SyntaxToken".toList⟩]
  | .rTrueExpression => [⟨"true_token".toList, 0, .requiredToken, "SyntaxToken".toList⟩]
  | .rUnaryExpression => [⟨"operator".toList, 0, .requiredToken, "SyntaxToken".toList⟩, ⟨"argument".toList, 1,
      .requiredNode, "AnyRExpression".toList⟩]
  | .rWhileStatement => [⟨"while_token".toList, 0, .requiredToken, "SyntaxToken".toList⟩, ⟨"l_paren_token".toList, 1,
      .requiredToken, "SyntaxToken".toList⟩, ⟨"condition".toList, 2, .requiredNode, "AnyRExpression".toList⟩,
      ⟨"r_paren_token".toList, 3, .requiredToken, "SyntaxToken".toList⟩, ⟨"body".toList, 4, .requiredNode,
      "AnyRExpression".toList⟩]
  | _ => []

/-- A method that replaces a part: `splice_slots` of one slot. (crates/air_r_syntax/src/generated/nodes_mut.rs) -/
structure Mutator where
  name : Name
  slot : Nat
  optional : Bool
  ty : Name
  deriving DecidableEq

/-- The mutators of all nodes, without `with_`. (crates/air_r_syntax/src/generated/nodes_mut.rs:6-611) -/
def mutators : Syntax.Kind → List Mutator
  | .rArgument => [⟨"name_clause".toList, 0, true, "RArgumentNameClause".toList⟩, ⟨"value".toList, 1, true,
      "AnyRExpression".toList⟩]
  | .rArgumentNameClause => [⟨"name".toList, 0, false, "AnyRArgumentName".toList⟩, ⟨"eq_token".toList, 1, false,
      "SyntaxToken".toList⟩]
  | .rBinaryExpression => [⟨"left".toList, 0, false, "AnyRExpression".toList⟩, ⟨"operator_token".toList, 1, false,
      "SyntaxToken".toList⟩, ⟨"right".toList, 2, false, "AnyRExpression".toList⟩]
  | .rBracedExpressions => [⟨"l_curly_token".toList, 0, false, "SyntaxToken".toList⟩, ⟨"expressions".toList, 1, false,
      "RExpressionList".toList⟩, ⟨"r_curly_token".toList, 2, false, "SyntaxToken".toList⟩]
  | .rBreakExpression => [⟨"break_token".toList, 0, false, "SyntaxToken".toList⟩]
  | .rCall => [⟨"function".toList, 0, false, "AnyRExpression".toList⟩, ⟨"arguments".toList, 1, false,
      "RCallArguments".toList⟩]
  | .rCallArguments => [⟨"l_paren_token".toList, 0, false, "SyntaxToken".toList⟩, ⟨"items".toList, 1, false,
      "RArgumentList".toList⟩, ⟨"r_paren_token".toList, 2, false, "SyntaxToken".toList⟩]
  | .rComplexValue => [⟨"value_token".toList, 0, false, "SyntaxToken".toList⟩]
  | .rDotDotI => [⟨"value_token".toList, 0, false, "SyntaxToken".toList⟩]
  | .rDots => [⟨"value_token".toList, 0, false, "SyntaxToken".toList⟩]
  | .rDoubleValue => [⟨"value_token".toList, 0, false, "SyntaxToken".toList⟩]
  | .rElseClause => [⟨"else_token".toList, 0, false, "SyntaxToken".toList⟩, ⟨"alternative".toList, 1, false,
      "AnyRExpression".toList⟩]
  | .rExtractExpression => [⟨"left".toList, 0, false, "AnyRExpression".toList⟩, ⟨"operator_token".toList, 1, false,
      "SyntaxToken".toList⟩, ⟨"right".toList, 2, false, "AnyRSelector".toList⟩]
  | .rFalseExpression => [⟨"false_token".toList, 0, false, "SyntaxToken".toList⟩]
  | .rForStatement => [⟨"for_token".toList, 0, false, "SyntaxToken".toList⟩, ⟨"l_paren_token".toList, 1, false,
      "SyntaxToken".toList⟩, ⟨"variable".toList, 2, false, "RIdentifier".toList⟩, ⟨"in_token".toList, 3, false,
      "SyntaxToken".toList⟩, ⟨"sequence".toList, 4, false, "AnyRExpression".toList⟩, ⟨"r_paren_token".toList, 5, false,
      "SyntaxToken".toList⟩, ⟨"body".toList, 6, false, "AnyRExpression".toList⟩]
  | .rFunctionDefinition => [⟨"name_token".toList, 0, false, "SyntaxToken".toList⟩, ⟨"parameters".toList, 1, false,
      "RParameters".toList⟩, ⟨"body".toList, 2, false, "AnyRExpression".toList⟩]
  | .rIdentifier => [⟨"name_token".toList, 0, false, "SyntaxToken".toList⟩]
  | .rIfStatement => [⟨"if_token".toList, 0, false, "SyntaxToken".toList⟩, ⟨"l_paren_token".toList, 1, false,
      "SyntaxToken".toList⟩, ⟨"condition".toList, 2, false, "AnyRExpression".toList⟩, ⟨"r_paren_token".toList, 3, false,
      "SyntaxToken".toList⟩, ⟨"consequence".toList, 4, false, "AnyRExpression".toList⟩, ⟨"else_clause".toList, 5, true,
      "RElseClause".toList⟩]
  | .rInfExpression => [⟨"inf_token".toList, 0, false, "SyntaxToken".toList⟩]
  | .rIntegerValue => [⟨"value_token".toList, 0, false, "SyntaxToken".toList⟩]
  | .rNaExpression => [⟨"value_token".toList, 0, false, "SyntaxToken".toList⟩]
  | .rNamespaceExpression => [⟨"left".toList, 0, false, "AnyRSelector".toList⟩, ⟨"operator_token".toList, 1, false,
      "SyntaxToken".toList⟩, ⟨"right".toList, 2, false, "AnyRSelector".toList⟩]
  | .rNanExpression => [⟨"nan_token".toList, 0, false, "SyntaxToken".toList⟩]
  | .rNextExpression => [⟨"next_token".toList, 0, false, "SyntaxToken".toList⟩]
  | .rNullExpression => [⟨"null_token".toList, 0, false, "SyntaxToken".toList⟩]
  | .rParameter => [⟨"name".toList, 0, false, "AnyRParameterName".toList⟩, ⟨"default".toList, 1, true,
      "RParameterDefault".toList⟩]
  | .rParameterDefault => [⟨"eq_token".toList, 0, false, "SyntaxToken".toList⟩, ⟨"value".toList, 1, false,
      "AnyRExpression".toList⟩]
  | .rParameters => [⟨"l_paren_token".toList, 0, false, "SyntaxToken".toList⟩, ⟨"items".toList, 1, false,
      "RParameterList".toList⟩, ⟨"r_paren_token".toList, 2, false, "SyntaxToken".toList⟩]
  | .rParenthesizedExpression => [⟨"l_paren_token".toList, 0, false, "SyntaxToken".toList⟩, ⟨"body".toList, 1, false,
      "AnyRExpression".toList⟩, ⟨"r_paren_token".toList, 2, false, "SyntaxToken".toList⟩]
  | .rRepeatStatement => [⟨"repeat_token".toList, 0, false, "SyntaxToken".toList⟩, ⟨"body".toList, 1, false,
      "AnyRExpression".toList⟩]
  | .rRoot => [⟨"bom_token".toList, 0, true, "SyntaxToken".toList⟩, ⟨"expressions".toList, 1, false,
      "RExpressionList".toList⟩, ⟨"eof_token".toList, 2, false, "SyntaxToken".toList⟩]
  | .rStringValue => [⟨"open_token".toList, 0, false, "SyntaxToken".toList⟩, ⟨"content_token".toList, 1, true,
      "SyntaxToken".toList⟩, ⟨"close_token".toList, 2, false, "SyntaxToken".toList⟩]
  | .rSubset => [⟨"function".toList, 0, false, "AnyRExpression".toList⟩, ⟨"arguments".toList, 1, false,
      "RSubsetArguments".toList⟩]
  | .rSubset2 => [⟨"function".toList, 0, false, "AnyRExpression".toList⟩, ⟨"arguments".toList, 1, false,
      "RSubset2Arguments".toList⟩]
  | .rSubset2Arguments => [⟨"l_brack2_token".toList, 0, false, "SyntaxToken".toList⟩, ⟨"items".toList, 1, false,
      "RArgumentList".toList⟩, ⟨"r_brack2_token".toList, 2, false, "SyntaxToken".toList⟩]
  | .rSubsetArguments => [⟨"l_brack_token".toList, 0, false, "SyntaxToken".toList⟩, ⟨"items".toList, 1, false,
      "RArgumentList".toList⟩, ⟨"r_brack_token".toList, 2, false, "SyntaxToken".toList⟩]
  | .rTrueExpression => [⟨"true_token".toList, 0, false, "SyntaxToken".toList⟩]
  | .rUnaryExpression => [⟨"operator_token".toList, 0, false, "SyntaxToken".toList⟩, ⟨"argument".toList, 1, false,
      "AnyRExpression".toList⟩]
  | .rWhileStatement => [⟨"while_token".toList, 0, false, "SyntaxToken".toList⟩, ⟨"l_paren_token".toList, 1, false,
      "SyntaxToken".toList⟩, ⟨"condition".toList, 2, false, "AnyRExpression".toList⟩, ⟨"r_paren_token".toList, 3, false,
      "SyntaxToken".toList⟩, ⟨"body".toList, 4, false, "AnyRExpression".toList⟩]
  | _ => []

/-- An argument of a function that makes a node, or a method of the builder if it is optional.
(crates/air_r_factory/src/generated/node_factory.rs) -/
structure Param where
  name : Name
  optional : Bool
  ty : Name
  deriving DecidableEq

/-- What the functions that make nodes put into the slots, in order. (crates/air_r_factory/src/generated/node_factory.rs:9-507) -/
def params : Syntax.Kind → List Param
  | .rArgument => [⟨"name_clause".toList, true, "RArgumentNameClause".toList⟩, ⟨"value".toList, true,
      "AnyRExpression".toList⟩]
  | .rArgumentNameClause => [⟨"name".toList, false, "AnyRArgumentName".toList⟩, ⟨"eq_token".toList, false,
      "SyntaxToken".toList⟩]
  | .rBinaryExpression => [⟨"left".toList, false, "AnyRExpression".toList⟩, ⟨"operator_token".toList, false,
      "SyntaxToken".toList⟩, ⟨"right".toList, false, "AnyRExpression".toList⟩]
  | .rBracedExpressions => [⟨"l_curly_token".toList, false, "SyntaxToken".toList⟩, ⟨"expressions".toList, false,
      "RExpressionList".toList⟩, ⟨"r_curly_token".toList, false, "SyntaxToken".toList⟩]
  | .rBreakExpression => [⟨"break_token".toList, false, "SyntaxToken".toList⟩]
  | .rCall => [⟨"function".toList, false, "AnyRExpression".toList⟩, ⟨"arguments".toList, false, "RCallArguments".toList⟩]
  | .rCallArguments => [⟨"l_paren_token".toList, false, "SyntaxToken".toList⟩, ⟨"items".toList, false,
      "RArgumentList".toList⟩, ⟨"r_paren_token".toList, false, "SyntaxToken".toList⟩]
  | .rComplexValue => [⟨"value_token".toList, false, "SyntaxToken".toList⟩]
  | .rDotDotI => [⟨"value_token".toList, false, "SyntaxToken".toList⟩]
  | .rDots => [⟨"value_token".toList, false, "SyntaxToken".toList⟩]
  | .rDoubleValue => [⟨"value_token".toList, false, "SyntaxToken".toList⟩]
  | .rElseClause => [⟨"else_token".toList, false, "SyntaxToken".toList⟩, ⟨"alternative".toList, false,
      "AnyRExpression".toList⟩]
  | .rExtractExpression => [⟨"left".toList, false, "AnyRExpression".toList⟩, ⟨"operator_token".toList, false,
      "SyntaxToken".toList⟩, ⟨"right".toList, false, "AnyRSelector".toList⟩]
  | .rFalseExpression => [⟨"false_token".toList, false, "SyntaxToken".toList⟩]
  | .rForStatement => [⟨"for_token".toList, false, "SyntaxToken".toList⟩, ⟨"l_paren_token".toList, false,
      "SyntaxToken".toList⟩, ⟨"variable".toList, false, "RIdentifier".toList⟩, ⟨"in_token".toList, false,
      "SyntaxToken".toList⟩, ⟨"sequence".toList, false, "AnyRExpression".toList⟩, ⟨"r_paren_token".toList, false,
      "SyntaxToken".toList⟩, ⟨"body".toList, false, "AnyRExpression".toList⟩]
  | .rFunctionDefinition => [⟨"name_token".toList, false, "SyntaxToken".toList⟩, ⟨"parameters".toList, false,
      "RParameters".toList⟩, ⟨"body".toList, false, "AnyRExpression".toList⟩]
  | .rIdentifier => [⟨"name_token".toList, false, "SyntaxToken".toList⟩]
  | .rIfStatement => [⟨"if_token".toList, false, "SyntaxToken".toList⟩, ⟨"l_paren_token".toList, false,
      "SyntaxToken".toList⟩, ⟨"condition".toList, false, "AnyRExpression".toList⟩, ⟨"r_paren_token".toList, false,
      "SyntaxToken".toList⟩, ⟨"consequence".toList, false, "AnyRExpression".toList⟩, ⟨"else_clause".toList, true,
      "RElseClause".toList⟩]
  | .rInfExpression => [⟨"inf_token".toList, false, "SyntaxToken".toList⟩]
  | .rIntegerValue => [⟨"value_token".toList, false, "SyntaxToken".toList⟩]
  | .rNaExpression => [⟨"value_token".toList, false, "SyntaxToken".toList⟩]
  | .rNamespaceExpression => [⟨"left".toList, false, "AnyRSelector".toList⟩, ⟨"operator_token".toList, false,
      "SyntaxToken".toList⟩, ⟨"right".toList, false, "AnyRSelector".toList⟩]
  | .rNanExpression => [⟨"nan_token".toList, false, "SyntaxToken".toList⟩]
  | .rNextExpression => [⟨"next_token".toList, false, "SyntaxToken".toList⟩]
  | .rNullExpression => [⟨"null_token".toList, false, "SyntaxToken".toList⟩]
  | .rParameter => [⟨"name".toList, false, "AnyRParameterName".toList⟩, ⟨"default".toList, true,
      "RParameterDefault".toList⟩]
  | .rParameterDefault => [⟨"eq_token".toList, false, "SyntaxToken".toList⟩, ⟨"value".toList, false,
      "AnyRExpression".toList⟩]
  | .rParameters => [⟨"l_paren_token".toList, false, "SyntaxToken".toList⟩, ⟨"items".toList, false,
      "RParameterList".toList⟩, ⟨"r_paren_token".toList, false, "SyntaxToken".toList⟩]
  | .rParenthesizedExpression => [⟨"l_paren_token".toList, false, "SyntaxToken".toList⟩, ⟨"body".toList, false,
      "AnyRExpression".toList⟩, ⟨"r_paren_token".toList, false, "SyntaxToken".toList⟩]
  | .rRepeatStatement => [⟨"repeat_token".toList, false, "SyntaxToken".toList⟩, ⟨"body".toList, false,
      "AnyRExpression".toList⟩]
  | .rRoot => [⟨"bom_token".toList, true, "SyntaxToken".toList⟩, ⟨"expressions".toList, false, "RExpressionList".toList⟩,
      ⟨"eof_token".toList, false, "SyntaxToken".toList⟩]
  | .rStringValue => [⟨"open_token".toList, false, "SyntaxToken".toList⟩, ⟨"content_token".toList, true,
      "SyntaxToken".toList⟩, ⟨"close_token".toList, false, "SyntaxToken".toList⟩]
  | .rSubset => [⟨"function".toList, false, "AnyRExpression".toList⟩, ⟨"arguments".toList, false,
      "RSubsetArguments".toList⟩]
  | .rSubset2 => [⟨"function".toList, false, "AnyRExpression".toList⟩, ⟨"arguments".toList, false,
      "RSubset2Arguments".toList⟩]
  | .rSubset2Arguments => [⟨"l_brack2_token".toList, false, "SyntaxToken".toList⟩, ⟨"items".toList, false,
      "RArgumentList".toList⟩, ⟨"r_brack2_token".toList, false, "SyntaxToken".toList⟩]
  | .rSubsetArguments => [⟨"l_brack_token".toList, false, "SyntaxToken".toList⟩, ⟨"items".toList, false,
      "RArgumentList".toList⟩, ⟨"r_brack_token".toList, false, "SyntaxToken".toList⟩]
  | .rTrueExpression => [⟨"true_token".toList, false, "SyntaxToken".toList⟩]
  | .rUnaryExpression => [⟨"operator_token".toList, false, "SyntaxToken".toList⟩, ⟨"argument".toList, false,
      "AnyRExpression".toList⟩]
  | .rWhileStatement => [⟨"while_token".toList, false, "SyntaxToken".toList⟩, ⟨"l_paren_token".toList, false,
      "SyntaxToken".toList⟩, ⟨"condition".toList, false, "AnyRExpression".toList⟩, ⟨"r_paren_token".toList, false,
      "SyntaxToken".toList⟩, ⟨"body".toList, false, "AnyRExpression".toList⟩]
  | _ => []

/-! ## What they do -/

/-- `can_cast` of a type (crates/air_r_syntax/src/generated/nodes.rs); tokens have no check of their kind. -/
def fits (ty : Name) : Slot → Bool
  | .empty => false
  | .token _ => ty = "SyntaxToken".toList
  | .node k _ =>
    if ty = "AnyRExpression".toList then Syntax.isExpressionKind k
    else if ty = "AnyRValue".toList then Syntax.isValueKind k
    else if ty = "AnyRSelector".toList then Syntax.isSelectorKind k
    else if ty = "AnyRArgumentName".toList then Syntax.isArgumentNameKind k
    else if ty = "AnyRParameterName".toList then Syntax.isParameterNameKind k
    else elemOf k = .node ty

/-- The result of an accessor: `Ok` or `Some`, `Err(MissingRequiredChild)` or `None`, or a panic. -/
inductive Part
  | there (s : Slot) | missing | panic

/-- A call of an accessor (`support` of biome_rowan, external, as documented): the element in the slot must be of the sort and
type asked for, and a list must be there. (crates/air_r_syntax/src/generated/nodes.rs:19-1700) -/
def Accessor.get (a : Accessor) (slots : List Slot) : Part :=
  match slots[a.slot]? with
  | none | some .empty => if a.how = .list then .panic else .missing
  | some (.token t) => if a.how = .token ∨ a.how = .requiredToken then .there (.token t) else .panic
  | some (.node k ss) =>
    if a.how ≠ .token ∧ a.how ≠ .requiredToken ∧ fits a.ty (.node k ss) then .there (.node k ss) else .panic

/-- `new_detached` with the arguments (node_factory.rs:9-507; biome_rowan, external). -/
def build (ps : List Param) (arg : Name → Option Slot) : List Slot := ps.map fun p => (arg p.name).getD .empty

/-- `splice_slots(i..=i, once(element))` (nodes_mut.rs:6-611; biome_rowan, external). -/
def Mutator.set (m : Mutator) (element : Option Slot) (slots : List Slot) : List Slot := slots.set m.slot (element.getD .empty)

/-- `r_argument_list`, `r_parameter_list` (node_factory.rs:508-561): the slots from number `i` on. -/
def interleave : Nat → Nat → List Slot → List Slot → List Slot
  | 0, _, _, _ => []
  | length + 1, i, items, separators =>
    if i % 2 = 0 then (items.head?.getD .empty) :: interleave length (i + 1) items.tail separators
    else (separators.head?.getD .empty) :: interleave length (i + 1) items separators.tail

/-- The slots of `r_argument_list(items, separators)` and `r_parameter_list(items, separators)` (node_factory.rs:508-561). -/
def makeList (items separators : List Slot) : List Slot :=
  interleave (items.length + separators.length) 0 items separators

/-! ## What the generator writes -/

/-- `Field::method_name` (xtask/codegen/src/kind_src.rs:113-215), of the table only tokens that are in r.ungram. `(` stands for the
name `'('` of such a token (`clean_token_name`, ast.rs:237-247). Prefixes of languages and `type` are left out: no part of r.ungram has
such a name, nor a name without a label. -/
def methodName : Field → Name
  | .token n _ _ _ =>
    (((["{", "}", "(", ")", "[", "]", "[[", "]]", "=", "!", "...", ":", "::", "\\"].zip ["l_curly", "r_curly", "l_paren", "r_paren",
      "l_brack", "r_brack", "l_brack2", "r_brack2", "eq", "excl", "dotdotdot", "colon", "double_colon", "backslash"]).map
      fun (a, b) => (a.toList, b.toList)).lookup n).getD n ++ "_token".toList
  | .node n _ _ _ => n

/-- The name of the accessor: alternatives of tokens (`TokenKind::Many`) do without `_token` (generate_nodes.rs:26-39). There is
no alternative of a single token. -/
def accessorName : Field → Name
  | .token n (_ :: _ :: _) _ _ => n
  | f => methodName f

/-- The type of a field (kind_src.rs:216-219). -/
def Field.ty : Field → Name
  | .token _ _ _ _ => "SyntaxToken".toList
  | .node _ ty _ _ => ty

/-- The accessor that is generated for a field (xtask/codegen/src/generate_nodes.rs:26-88). For an
optional list the generator panics; this is left out. -/
def Field.accessor (ast : List (Name × Def)) (f : Field) (slot : Nat) : Accessor :=
  ⟨accessorName f, slot, match f with
    | .token _ _ true _ => .token
    | .token _ _ false _ => .requiredToken
    | .node _ ty o _ =>
      match ast.lookup ty with
      | some (.list _ _) => .list
      | _ => if o then .node else .requiredNode, f.ty⟩

/-- The mutator that is generated for a field (xtask/codegen/src/generate_nodes_mut.rs:13-66). -/
def Field.mutator (f : Field) (slot : Nat) : Mutator := ⟨methodName f, slot, f.optional, f.ty⟩

/-- The argument, or method of the builder, that is generated for a field (xtask/codegen/src/generate_node_factory.rs:15-138). -/
def Field.param (f : Field) : Param := ⟨methodName f, f.optional, f.ty⟩

end Verif.Ungrammar
