import Verif.Model.Ast

/-!
# Slots of syntax nodes (`crates/air_r_factory`, `crates/air_r_syntax/src/generated/nodes.rs`)

When a node is finished, the factory distributes its children over the slots of its kind. The formatter gets at
the parts of a node by the numbers of their slots. `biome_rowan` is not part of the repository: what its
`RawNodeSlots`, `make_node_list_syntax`, `make_separated_list_syntax` and `support` do is modelled from their
documented behaviour.
-/

namespace Verif.Syntax

/-- A syntax tree with its slots (`RSyntaxNode`, `RSyntaxToken`); `empty` is a slot that nothing is in.
(biome_rowan, external; crates/air_r_factory/src/generated/syntax_factory.rs:12-19) -/
inductive Slot where
  | empty
  | token (t : Token)
  | node (kind : Kind) (slots : List Slot)

/-- `SyntaxElement::kind`. (biome_rowan, external; used in
crates/air_r_factory/src/generated/syntax_factory.rs:20-45) -/
def Slot.kind? : Slot → Option Kind
  | .empty => none
  | .token t => some t.kind
  | .node k _ => some k

/-- Nothing is in the slot (biome_rowan, external; crates/air_r_factory/src/generated/syntax_factory.rs:12-19). -/
def Slot.isEmpty : Slot → Bool
  | .empty => true
  | _ => false

/-! ## Which kinds fit -/

/-- `AnyRValue::can_cast` (nodes.rs:4252-4257). -/
def isValueKind : Kind → Bool
  | .rBogusValue | .rComplexValue | .rDoubleValue | .rIntegerValue | .rStringValue => true
  | _ => false

/-- `AnyRExpression::can_cast` (nodes.rs:3853-3884). -/
def isExpressionKind : Kind → Bool
  | .rBinaryExpression | .rBogusExpression | .rBracedExpressions | .rBreakExpression | .rCall | .rDotDotI
  | .rDots | .rExtractExpression | .rFalseExpression | .rForStatement | .rFunctionDefinition | .rIdentifier
  | .rIfStatement | .rInfExpression | .rNaExpression | .rNamespaceExpression | .rNanExpression
  | .rNextExpression | .rNullExpression | .rParenthesizedExpression | .rRepeatStatement | .rSubset
  | .rSubset2 | .rTrueExpression | .rUnaryExpression | .rWhileStatement => true
  | k => isValueKind k

/-- `AnyRSelector::can_cast` (nodes.rs:4164-4166). -/
def isSelectorKind : Kind → Bool
  | .rDotDotI | .rDots | .rIdentifier | .rStringValue => true
  | _ => false

/-- `AnyRArgumentName::can_cast` (nodes.rs:3630-3635). -/
def isArgumentNameKind : Kind → Bool
  | .rDotDotI | .rDots | .rIdentifier | .rNullExpression | .rStringValue => true
  | _ => false

/-- `AnyRParameterName::can_cast` (nodes.rs:4087-4089). -/
def isParameterNameKind : Kind → Bool
  | .rDotDotI | .rDots | .rIdentifier => true
  | _ => false

/-- Operators of `RBinaryExpression` (syntax_factory.rs:84-113). -/
def isBinaryOperator : Kind → Bool
  | .wat | .colon | .tilde | .assign | .superAssign | .walrus | .assignRight | .superAssignRight | .equal
  | .orOp | .andOp | .or2 | .and2 | .lessThan | .lessThanOrEqualTo | .greaterThan | .greaterThanOrEqualTo
  | .equal2 | .notEqual | .plus | .minus | .multiply | .divide | .exponentiate | .exponentiate2 | .pipe
  | .special => true
  | _ => false

/-- `RSyntaxKind::to_bogus` (crates/air_r_syntax/src/lib.rs:159-289). -/
def Kind.toBogus : Kind → Kind
  | .rIntegerValue | .rDoubleValue | .rComplexValue | .rStringValue | .rBogusValue => .rBogusValue
  | .rUnaryExpression | .rBinaryExpression | .rExtractExpression | .rNamespaceExpression
  | .rBogusExpression => .rBogusExpression
  | _ => .rBogus

/-- What fits into the slots of the nodes that are not lists (syntax_factory.rs:20-1130). -/
def slotTests : Kind → Option (List (Kind → Bool))
  | .rArgument => some [(· == .rArgumentNameClause), isExpressionKind]
  | .rArgumentNameClause => some [isArgumentNameKind, (· == .equal)]
  | .rBinaryExpression => some [isExpressionKind, isBinaryOperator, isExpressionKind]
  | .rBracedExpressions => some [(· == .lCurly), (· == .rExpressionList), (· == .rCurly)]
  | .rBreakExpression => some [(· == .breakKw)]
  | .rCall => some [isExpressionKind, (· == .rCallArguments)]
  | .rCallArguments => some [(· == .lParen), (· == .rArgumentList), (· == .rParen)]
  | .rComplexValue => some [(· == .rComplexLiteral)]
  | .rDotDotI => some [(· == .dotdoti)]
  | .rDots => some [(· == .dots)]
  | .rDoubleValue => some [(· == .rDoubleLiteral)]
  | .rElseClause => some [(· == .elseKw), isExpressionKind]
  | .rExtractExpression => some [isExpressionKind, (fun k => k == .dollar || k == .atSign), isSelectorKind]
  | .rFalseExpression => some [(· == .falseKw)]
  | .rForStatement => some [(· == .forKw), (· == .lParen), (· == .rIdentifier), (· == .inKw), isExpressionKind,
    (· == .rParen), isExpressionKind]
  | .rFunctionDefinition => some [(fun k => k == .functionKw || k == .backslash), (· == .rParameters),
    isExpressionKind]
  | .rIdentifier => some [(· == .ident)]
  | .rIfStatement => some [(· == .ifKw), (· == .lParen), isExpressionKind, (· == .rParen), isExpressionKind,
    (· == .rElseClause)]
  | .rInfExpression => some [(· == .infKw)]
  | .rIntegerValue => some [(· == .rIntegerLiteral)]
  | .rNaExpression => some [fun k => k == .naLogicalKw || k == .naIntegerKw || k == .naDoubleKw ||
    k == .naComplexKw || k == .naCharacterKw]
  | .rNamespaceExpression => some [isSelectorKind, (fun k => k == .colon2 || k == .colon3), isSelectorKind]
  | .rNanExpression => some [(· == .nanKw)]
  | .rNextExpression => some [(· == .nextKw)]
  | .rNullExpression => some [(· == .nullKw)]
  | .rParameter => some [isParameterNameKind, (· == .rParameterDefault)]
  | .rParameterDefault => some [(· == .equal), isExpressionKind]
  | .rParameters => some [(· == .lParen), (· == .rParameterList), (· == .rParen)]
  | .rParenthesizedExpression => some [(· == .lParen), isExpressionKind, (· == .rParen)]
  | .rRepeatStatement => some [(· == .repeatKw), isExpressionKind]
  | .rRoot => some [(· == .unicodeBom), (· == .rExpressionList), (· == .eof)]
  | .rStringValue => some [(· == .stringOpen), (· == .stringContent), (· == .stringClose)]
  | .rSubset => some [isExpressionKind, (· == .rSubsetArguments)]
  | .rSubset2 => some [isExpressionKind, (· == .rSubset2Arguments)]
  | .rSubset2Arguments => some [(· == .lBrack2), (· == .rArgumentList), (· == .rBrack2)]
  | .rSubsetArguments => some [(· == .lBrack), (· == .rArgumentList), (· == .rBrack)]
  | .rTrueExpression => some [(· == .trueKw)]
  | .rUnaryExpression => some [(fun k => k == .plus || k == .minus || k == .tilde || k == .bang || k == .wat),
    isExpressionKind]
  | .rWhileStatement => some [(· == .whileKw), (· == .lParen), isExpressionKind, (· == .rParen),
    isExpressionKind]
  | _ => none

/-! ## The factory -/

/-- One node that is not a list (e.g. syntax_factory.rs:20-45): every slot takes the next child if it fits, and
stays empty otherwise; `none` if children remain. -/
def fillSlots : List (Kind → Bool) → List Slot → Option (List Slot)
  | [], [] => some []
  | [], _ :: _ => none
  | _ :: ps, [] => (fillSlots ps []).map (.empty :: ·)
  | p :: ps, c :: cs =>
    if c.kind?.any p then (fillSlots ps cs).map (c :: ·) else (fillSlots ps (c :: cs)).map (.empty :: ·)

/-- `make_separated_list_syntax` of `biome_rowan`, with trailing separators not allowed: elements that fit and
separators alternate; where one is missing there is an empty slot, and anything else makes the list bogus.
`elem`: an element is due. `first`: nothing came before.
(crates/air_r_factory/src/generated/syntax_factory.rs:1131-1147) -/
def fillSeparated (fits : Kind → Bool) (sep : Kind) : Bool → Bool → List Slot → Option (List Slot)
  | elem, first, [] => some (if elem && !first then [.empty] else [])
  | true, _, c :: cs =>
    if c.kind?.any fits then (fillSeparated fits sep false false cs).map (c :: ·)
    else if c.kind? == some sep then (fillSeparated fits sep true false cs).map (fun r => .empty :: c :: r)
    else none
  | false, _, c :: cs =>
    if c.kind? == some sep then (fillSeparated fits sep true false cs).map (c :: ·)
    else if c.kind?.any fits then (fillSeparated fits sep false false cs).map (fun r => .empty :: c :: r)
    else none

/-- The slots of a node of this kind with these children; `none` if the node is bogus.
(crates/air_r_factory/src/generated/syntax_factory.rs:12-1151) -/
def nodeSlots (kind : Kind) (cs : List Slot) : Option (List Slot) :=
  match kind with
  | .rArgumentList => fillSeparated (· == .rArgument) .comma true true cs
  | .rParameterList => fillSeparated (· == .rParameter) .comma true true cs
  | .rExpressionList => if cs.all (fun c => c.kind?.any isExpressionKind) then some cs else none
  | .rBogus | .rBogusExpression | .rBogusValue => some cs
  | k => (slotTests k).bind fun ps => fillSlots ps cs

/-- Kinds of nodes: the others are `unreachable!` (syntax_factory.rs:1148). -/
def isNodeKind : Kind → Bool
  | .rArgumentList | .rParameterList | .rExpressionList | .rBogus | .rBogusExpression | .rBogusValue => true
  | k => (slotTests k).isSome

/-- `RSyntaxFactory::make_syntax` (syntax_factory.rs:12-1151); `none` is the panic for kinds of tokens. -/
def makeSyntax (kind : Kind) (cs : List Slot) : Option Slot :=
  if isNodeKind kind then
    match nodeSlots kind cs with
    | some slots => some (.node kind slots)
    | none => some (.node kind.toBogus cs)
  else none

mutual
/-- The nodes of a tree are finished from the inside to the outside (`TreeBuilder::finish_node` of
`biome_rowan`). (external; crates/air_r_parser/src/parse.rs:102-122 builds the tree with the factory of
crates/air_r_factory/src/generated/syntax_factory.rs:12-1151) -/
def Tree.slotted : Tree → Option Slot
  | .token t => some (.token t)
  | .node k cs => (Tree.slottedList cs).bind (makeSyntax k)
/-- The children of a node, in order (external; crates/air_r_parser/src/parse.rs:102-122). -/
def Tree.slottedList : List Tree → Option (List Slot)
  | [] => some []
  | c :: cs => (Tree.slotted c).bind fun s => (Tree.slottedList cs).map (s :: ·)
end

end Verif.Syntax

namespace Verif.Format
open Verif.Syntax

/-! ## What the formatter sees

The fields of nodes (`as_fields`, nodes.rs:38-1620): `support::required_node`, `required_token`, `node`,
`token` and `list` with the number of the slot. `none`: a part that is required is missing, or a node is
bogus. -/

/-- Nodes with a single token (e.g. nodes.rs:214-216). -/
def isAtomKind : Kind → Bool
  | .rBreakExpression | .rComplexValue | .rDotDotI | .rDots | .rDoubleValue | .rFalseExpression | .rIdentifier
  | .rInfExpression | .rIntegerValue | .rNaExpression | .rNanExpression | .rNextExpression
  | .rNullExpression | .rTrueExpression => true
  | _ => false

/-- A slot for a token that may be empty (`support::token`, e.g.
crates/air_r_syntax/src/generated/nodes.rs:1260-1275). -/
def optToken : Slot → Option (Option Token)
  | .empty => some none
  | .token t => some (some t)
  | .node .. => none

mutual
/-- `AnyRExpression::cast` and the fields of the node. (crates/air_r_syntax/src/generated/nodes.rs:106-1640 and
3853-3920) -/
def castExpr : Slot → Option Expr
  | .node .rStringValue [.token o, c, .token l] => (optToken c).map fun c => .str {} o c l
  | .node .rParenthesizedExpression [.token l, e, .token r] => do some (.paren {} l (← castExpr e) r)
  | .node .rBracedExpressions [.token l, .node .rExpressionList es, .token r] => do
    some (.braced {} l (← castExprs es) r)
  | .node .rUnaryExpression [.token o, e] => do some (.unary {} o (← castExpr e))
  | .node .rBinaryExpression [x, .token o, y] => do some (.binary {} (← castExpr x) o (← castExpr y))
  | .node .rExtractExpression [x, .token o, y] => do some (.sel {} .extract (← castExpr x) o (← castExpr y))
  | .node .rNamespaceExpression [x, .token o, y] => do
    some (.sel {} .namespace (← castExpr x) o (← castExpr y))
  | .node .rCall [f, .node .rCallArguments [.token l, .node .rArgumentList xs, .token r]] => do
    some (.call {} .call (← castExpr f) {} l (← castItems xs) r)
  | .node .rSubset [f, .node .rSubsetArguments [.token l, .node .rArgumentList xs, .token r]] => do
    some (.call {} .subset (← castExpr f) {} l (← castItems xs) r)
  | .node .rSubset2 [f, .node .rSubset2Arguments [.token l, .node .rArgumentList xs, .token r]] => do
    some (.call {} .subset2 (← castExpr f) {} l (← castItems xs) r)
  | .node .rFunctionDefinition [.token kw,
      .node .rParameters [.token l, .node .rParameterList xs, .token r], b] => do
    some (.func {} kw {} l (← castItems xs) r (← castExpr b))
  | .node .rIfStatement [.token kw, .token l, c, .token r, t, .empty] => do
    some (.ite {} kw l (← castExpr c) r (← castExpr t))
  | .node .rIfStatement [.token kw, .token l, c, .token r, t, .node .rElseClause [.token el, e]] => do
    some (.itee {} kw l (← castExpr c) r (← castExpr t) {} el (← castExpr e))
  | .node .rForStatement [.token kw, .token l, v, .token i, s, .token r, b] => do
    some (.for_ {} kw l (← castExpr v) i (← castExpr s) r (← castExpr b))
  | .node .rWhileStatement [.token kw, .token l, c, .token r, b] => do
    some (.while_ {} kw l (← castExpr c) r (← castExpr b))
  | .node .rRepeatStatement [.token kw, b] => do some (.repeat_ {} kw (← castExpr b))
  | .node k [.token t] => if isAtomKind k then some (.atom {} k t) else none
  | _ => none
/-- The elements of an `RExpressionList` (crates/air_r_syntax/src/generated/nodes.rs:4787-4868). -/
def castExprs : List Slot → Option Exprs
  | [] => some .nil
  | e :: es => do some (.cons (← castExpr e) (← castExprs es))
/-- The elements and separators of an `RArgumentList` or `RParameterList`
(crates/air_r_syntax/src/generated/nodes.rs:4705-4786, 4869-4950). -/
def castItems : List Slot → Option Items
  | [] => some .nil
  | [x] => do some (.last (← castArg x))
  | x :: .token s :: xs => do some (.cons (← castArg x) s (← castItems xs))
  | _ => none
/-- `RArgument` and `RParameter`. (crates/air_r_syntax/src/generated/nodes.rs:26-64, 1036-1074) -/
def castArg : Slot → Option Arg
  | .node .rArgument [.empty, .empty] => some (.hole {})
  | .node .rArgument [.empty, e] => do some (.val {} (← castExpr e))
  | .node .rArgument [.node .rArgumentNameClause [n, .token q], .empty] => do
    some (.name {} {} (← castExpr n) q)
  | .node .rArgument [.node .rArgumentNameClause [n, .token q], e] => do
    some (.named {} {} (← castExpr n) q (← castExpr e))
  | .node .rParameter [n, .empty] => do some (.val {} (← castExpr n))
  | .node .rParameter [n, .node .rParameterDefault [.token q, e]] => do
    some (.pdef {} (← castExpr n) {} q (← castExpr e))
  | _ => none
end

/-- `RRoot::cast` and its fields (nodes.rs:1260-1275); a file with a byte order mark does not reach the
formatter (C32). -/
def castRoot : Slot → Option Root
  | .node .rRoot [.empty, .node .rExpressionList es, .token eof] => do some ⟨{}, ← castExprs es, eof⟩
  | _ => none

end Verif.Format
