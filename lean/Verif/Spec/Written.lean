import Verif.Spec.Parser
import Verif.Spec.Spelled
import Verif.Spec.LineEnding

/-!
# From tree-sitter trees to programs

* `Expr.tree`: the syntax tree of an expression, as the grammar of syntax trees
  (`xtask/codegen/r.ungram`) lays it out. Optional parts that are missing are left out.
* `Written`: a tree of tree-sitter is the tree of a program, as the grammar of tree-sitter-r says:
  which nodes and tokens a node has, comments aside, and what text the tokens have. Positions of
  nodes do not matter, only those of tokens.
-/

namespace Verif.Whole
open Verif.Syntax Verif.Parser Verif.Format

/-! ## Syntax trees -/

def callKind : CallKind → Kind
  | .call => .rCall
  | .subset => .rSubset
  | .subset2 => .rSubset2
def argsKind : CallKind → Kind
  | .call => .rCallArguments
  | .subset => .rSubsetArguments
  | .subset2 => .rSubset2Arguments
def selKind : SelKind → Kind
  | .extract => .rExtractExpression
  | .namespace => .rNamespaceExpression

mutual
/-- The syntax tree of an expression (`r.ungram:48-330`). -/
def exprTree : Expr → Tree
  | .atom _ k t => .node k [.token t]
  | .str _ o c l => .node .rStringValue (.token o :: (c.toList.map .token ++ [.token l]))
  | .paren _ l e r => .node .rParenthesizedExpression [.token l, exprTree e, .token r]
  | .braced _ l es r =>
    .node .rBracedExpressions [.token l, .node .rExpressionList (exprTrees es), .token r]
  | .unary _ o e => .node .rUnaryExpression [.token o, exprTree e]
  | .binary _ x o y => .node .rBinaryExpression [exprTree x, .token o, exprTree y]
  | .sel _ k x o y => .node (selKind k) [exprTree x, .token o, exprTree y]
  | .call _ k f _ l items r =>
    .node (callKind k) [exprTree f,
      .node (argsKind k) [.token l, .node .rArgumentList (itemTrees false items), .token r]]
  | .func _ kw _ l items r b =>
    .node .rFunctionDefinition [.token kw,
      .node .rParameters [.token l, .node .rParameterList (itemTrees true items), .token r], exprTree b]
  | .ite _ kw l c r t =>
    .node .rIfStatement [.token kw, .token l, exprTree c, .token r, exprTree t]
  | .itee _ kw l c r t _ el e =>
    .node .rIfStatement [.token kw, .token l, exprTree c, .token r, exprTree t,
      .node .rElseClause [.token el, exprTree e]]
  | .for_ _ kw l v i s r b =>
    .node .rForStatement [.token kw, .token l, exprTree v, .token i, exprTree s, .token r, exprTree b]
  | .while_ _ kw l c r b =>
    .node .rWhileStatement [.token kw, .token l, exprTree c, .token r, exprTree b]
  | .repeat_ _ kw b => .node .rRepeatStatement [.token kw, exprTree b]
def exprTrees : Exprs → List Tree
  | .nil => []
  | .cons e es => exprTree e :: exprTrees es
/-- Arguments or (`par`) parameters. -/
def itemTrees (par : Bool) : Items → List Tree
  | .nil => []
  | .last x => [argTree par x]
  | .cons x s xs => argTree par x :: .token s :: itemTrees par xs
def argTree (par : Bool) : Arg → Tree
  | .hole _ => .node .rArgument []
  | .val _ e => .node (if par then .rParameter else .rArgument) [exprTree e]
  | .name _ _ n q => .node .rArgument [.node .rArgumentNameClause [exprTree n, .token q]]
  | .named _ _ n q e =>
    .node .rArgument [.node .rArgumentNameClause [exprTree n, .token q], exprTree e]
  | .pdef _ n _ q e => .node .rParameter [exprTree n, .node .rParameterDefault [.token q, exprTree e]]
end

/-- The syntax tree of a file. -/
def fileTree (x : Root) : Tree :=
  .node .rRoot [.node .rExpressionList (exprTrees x.es), .token x.eof]

/-! ## Trees of tree-sitter -/

/-- Children that are not comments. -/
def kids (cs : List TsNode) : List TsNode := cs.filter (fun c => c.kind != .comment)

/-- The node is this token. -/
def IsTok (text : List Byte) (n : TsNode) (t : Token) : Prop :=
  n.kind = t.kind ∧ (classify n.kind = .token ∨ classify n.kind = .content) ∧
    between text n.start n.stop = t.text

mutual
/-- The node is this expression (tree-sitter-r, `grammar.js`). -/
def Written (text : List Byte) : Expr → TsNode → Prop
  | .atom _ k t, n => n.kind = k ∧
    ((classify k = .value t.kind ∨ classify k = .atom t.kind) ∧ between text n.start n.stop = t.text ∨
      k = .rNaExpression ∧ ∃ c, kids n.children = [c] ∧ IsTok text c t)
  | .str _ o c l, n => n.kind = .rStringValue ∧ ∃ o' c' l', kids n.children = o' :: (c' ++ [l']) ∧
    IsTok text o' o ∧ IsTok text l' l ∧
    (match c with | none => c' = [] | some t => ∃ m, c' = [m] ∧ IsTok text m t)
  | .paren _ l e r, n => n.kind = .rParenthesizedExpression ∧ ∃ l' e' r',
    kids n.children = [l', e', r'] ∧ IsTok text l' l ∧ Written text e e' ∧ IsTok text r' r
  | .braced _ l es r, n => n.kind = .rBracedExpressions ∧ ∃ l' mid r',
    n.children = l' :: (mid ++ [r']) ∧ IsTok text l' l ∧ WrittenList text es (kids mid) ∧ IsTok text r' r
  | .unary _ o e, n => n.kind = .rUnaryExpression ∧ ∃ o' e',
    kids n.children = [o', e'] ∧ IsTok text o' o ∧ Written text e e'
  | .binary _ x o y, n => n.kind = .rBinaryExpression ∧ ∃ x' o' y',
    kids n.children = [x', o', y'] ∧ Written text x x' ∧ IsTok text o' o ∧ Written text y y'
  | .sel _ k x o y, n => n.kind = selKind k ∧ ∃ x' o' y',
    kids n.children = [x', o', y'] ∧ Written text x x' ∧ IsTok text o' o ∧ Written text y y'
  | .call _ k f _ l items r, n => n.kind = callKind k ∧ ∃ f' a' l' mid r',
    kids n.children = [f', a'] ∧ (∀ c ∈ n.children, c.kind = .comment → c.field ≠ .arguments) ∧
    f'.field ≠ .arguments ∧ a'.field = .arguments ∧
    classify a'.kind = .unreachable ∧ Written text f f' ∧
    a'.children = l' :: (mid ++ [r']) ∧ IsTok text l' l ∧ WrittenArgs text true items (kids mid) ∧
    IsTok text r' r
  | .func _ kw _ l items r b, n => n.kind = .rFunctionDefinition ∧ ∃ kw' p' b' l' mid r',
    kids n.children = [kw', p', b'] ∧ IsTok text kw' kw ∧ Written text b b' ∧ p'.kind = .rParameters ∧
    p'.children = l' :: (mid ++ [r']) ∧ IsTok text l' l ∧ WrittenPars text items (kids mid) ∧
    IsTok text r' r
  | .ite _ kw l c r t, n => n.kind = .rIfStatement ∧ ∃ kw' l' c' r' t',
    kids n.children = [kw', l', c', r', t'] ∧ kw.kind = .ifKw ∧ IsTok text kw' kw ∧ l.kind = .lParen ∧
    IsTok text l' l ∧ Written text c c' ∧ r.kind = .rParen ∧ IsTok text r' r ∧ Written text t t'
  | .itee _ kw l c r t _ el e, n => n.kind = .rIfStatement ∧ ∃ kw' l' c' r' t' el' e',
    kids n.children = [kw', l', c', r', t', el', e'] ∧ kw.kind = .ifKw ∧ IsTok text kw' kw ∧
    l.kind = .lParen ∧ IsTok text l' l ∧ Written text c c' ∧ r.kind = .rParen ∧ IsTok text r' r ∧
    Written text t t' ∧ el.kind = .elseKw ∧ IsTok text el' el ∧ Written text e e'
  | .for_ _ kw l v i s r b, n => n.kind = .rForStatement ∧ ∃ kw' l' v' i' s' r' b',
    kids n.children = [kw', l', v', i', s', r', b'] ∧ IsTok text kw' kw ∧ IsTok text l' l ∧
    v'.kind = .rIdentifier ∧ Written text v v' ∧ IsTok text i' i ∧ Written text s s' ∧ IsTok text r' r ∧
    Written text b b'
  | .while_ _ kw l c r b, n => n.kind = .rWhileStatement ∧ ∃ kw' l' c' r' b',
    kids n.children = [kw', l', c', r', b'] ∧ IsTok text kw' kw ∧ IsTok text l' l ∧ Written text c c' ∧
    IsTok text r' r ∧ Written text b b'
  | .repeat_ _ kw b, n => n.kind = .rRepeatStatement ∧ ∃ kw' b',
    kids n.children = [kw', b'] ∧ IsTok text kw' kw ∧ Written text b b'
/-- The nodes are these expressions. -/
def WrittenList (text : List Byte) : Exprs → List TsNode → Prop
  | .nil, ns => ns = []
  | .cons e es, ns => ∃ n r, ns = n :: r ∧ Written text e n ∧ WrittenList text es r
/-- Arguments and commas; there is no node for an argument without name and value. `first`: all of the
arguments, which are none or more than one hole. -/
def WrittenArgs (text : List Byte) (first : Bool) : Items → List TsNode → Prop
  | .nil, ns => first = true ∧ ns = []
  | .last x, ns => (first && x.isHole) = false ∧ WrittenArg text x ns
  | .cons x s xs, ns => ∃ a c r, ns = a ++ c :: r ∧ WrittenArg text x a ∧ s.kind = .comma ∧
    IsTok text c s ∧ WrittenArgs text false xs r
def WrittenArg (text : List Byte) : Arg → List TsNode → Prop
  | .hole _, ns => ns = []
  | .val _ e, ns => ∃ a e', ns = [a] ∧ a.kind = .rArgument ∧ kids a.children = [e'] ∧ Written text e e'
  | .name _ _ n q, ns => ∃ a n' q', ns = [a] ∧ a.kind = .rArgument ∧ kids a.children = [n', q'] ∧
    Written text n n' ∧ q.kind = .equal ∧ IsTok text q' q
  | .named _ _ n q e, ns => ∃ a n' q' e', ns = [a] ∧ a.kind = .rArgument ∧
    kids a.children = [n', q', e'] ∧ Written text n n' ∧ q.kind = .equal ∧ IsTok text q' q ∧
    Written text e e'
  | .pdef .., _ => False
/-- Parameters and commas. -/
def WrittenPars (text : List Byte) : Items → List TsNode → Prop
  | .nil, ns => ns = []
  | .last x, ns => ∃ p, ns = [p] ∧ WrittenPar text x p
  | .cons x s xs, ns => ∃ p c r, ns = p :: c :: r ∧ WrittenPar text x p ∧ IsTok text c s ∧
    WrittenPars text xs r
def WrittenPar (text : List Byte) : Arg → TsNode → Prop
  | .val _ e, p => p.kind = .rParameter ∧ ∃ e', kids p.children = [e'] ∧ Written text e e'
  | .pdef _ n _ q e, p => p.kind = .rParameter ∧ ∃ n' q' e', kids p.children = [n', q', e'] ∧
    Written text n n' ∧ q.kind = .equal ∧ IsTok text q' q ∧ Written text e e'
  | _, _ => False
end

/-- The tree is this program. -/
def WrittenRoot (text : List Byte) (es : Exprs) (root : TsNode) : Prop :=
  root.kind = .rRoot ∧ WrittenList text es (kids root.children)

/-- What is assumed of tree-sitter for a text that R accepts: the tree consists of nodes of the grammar
(`ShapedRoot`) that cover the text (`Tiled`), it is the tree of the program that R reads (`WrittenRoot`),
comments start with `#`, and the parts of a string are adjacent. -/
structure Agrees (text : List Byte) (root : TsNode) (es : Exprs) : Prop where
  shaped : ShapedRoot root
  stop : root.stop = text.length
  tiled : Tiled text text.length 0 false (leaves root)
  written : WrittenRoot text es root
  comments : ∀ l ∈ leaves root, l.isComment = true → (between text l.start l.stop).head? = some 35
  strings : Joined (leaves root)

/-- Line ends in the text and in the tree of tree-sitter: carriage returns occur in front of line feeds only,
nothing begins or ends between the two, and line ends with carriage returns are in strings, not in other tokens
(names in backticks). -/
structure LineEnds (text : List Byte) (root : TsNode) : Prop where
  lined : Lined text
  apart : ∀ l ∈ leaves root, Apart text l.start ∧ Apart text l.stop
  tokens : ∀ l ∈ leaves root, l.isComment = false → l.kind ≠ .stringContent → 13 ∉ between text l.start l.stop

/-- What R makes of the line ends of a file that it reads. -/
def lf (text : List Byte) : List Byte := LineEnding.replaceCrlf 13 10 text

end Verif.Whole
