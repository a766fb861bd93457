import Verif.Model.Syntax

/-!
# Typed syntax trees with attached comments

The view the formatter has of a program: the typed accessors of
`crates/air_r_syntax/src/generated/nodes.rs` (grammar: `xtask/codegen/r.ungram`) together with the
comments that `biome_formatter::comments` attached to each node (leading, dangling, trailing; the
placement itself is `crates/air_r_formatter/src/comments.rs`, not part of this file). Syntax that
contains errors is never formatted (`crates/air_r_parser` reports the error first), so bogus nodes
and missing slots are not represented. Lists (`RExpressionList`, `RArgumentList`,
`RParameterList`) carry no comments in biome and are plain sequences here.
-/

namespace Verif.Format
open Verif.Syntax

/-- A comment as the formatter sees it (`biome_formatter::comments::SourceComment`): its text, the
number of line breaks before and after it, and what `FormatVerbatimNode` takes for lying inside the
trimmed range of the node it is attached to (`within`): a leading comment that does not end before the
node starts, or a trailing comment that does not end after the node. (used by
crates/air_r_formatter/src/comments.rs:35-62; the type itself is external) -/
structure Comment where
  text : List Byte
  before : Nat
  after : Nat
  within : Bool
  deriving DecidableEq, Repr

/-- The comments attached to one node. (`Comments` of the context, crates/air_r_formatter/src/context.rs:65-67,
crates/air_r_formatter/src/lib.rs:235-257; external type) -/
structure Ann where
  leading : List Comment := []
  dangling : List Comment := []
  trailing : List Comment := []
  deriving DecidableEq, Repr

/-- `RCall` / `RSubset` / `RSubset2`. (crates/air_r_syntax/src/generated/nodes.rs:231-235, 1336-1340, 1376-1380) -/
inductive CallKind | call | subset | subset2
  deriving DecidableEq, Repr

/-- `RExtractExpression` / `RNamespaceExpression`. (crates/air_r_syntax/src/generated/nodes.rs:496-500, 886-890) -/
inductive SelKind | extract | namespace
  deriving DecidableEq, Repr

mutual
/-- `AnyRExpression` (`xtask/codegen/r.ungram:70-108`). Every constructor starts with the comments
of its node.
* `atom a k t`: a node of kind `k` with the single token `t` (identifiers, numbers, `NULL`, …)
* `str a op content cl`: `RStringValue`
* `call a k f aa l items r`: callee, then the node `RCallArguments` (`RSubsetArguments`,
  `RSubset2Arguments`) with comments `aa`
* `func a kw pa l items r body`: the node `RParameters` has comments `pa`
* `ite a kw l c r t` and `itee a kw l c r t ea el e`: without and with `RElseClause` (comments
  `ea`). -/
inductive Expr where
  | atom (a : Ann) (k : Kind) (t : Token)
  | str (a : Ann) (op : Token) (content : Option Token) (cl : Token)
  | paren (a : Ann) (l : Token) (e : Expr) (r : Token)
  | braced (a : Ann) (l : Token) (es : Exprs) (r : Token)
  | unary (a : Ann) (op : Token) (e : Expr)
  | binary (a : Ann) (x : Expr) (op : Token) (y : Expr)
  | sel (a : Ann) (k : SelKind) (x : Expr) (op : Token) (y : Expr)
  | call (a : Ann) (k : CallKind) (f : Expr) (aa : Ann) (l : Token) (items : Items) (r : Token)
  | func (a : Ann) (kw : Token) (pa : Ann) (l : Token) (items : Items) (r : Token) (body : Expr)
  | ite (a : Ann) (kw l : Token) (c : Expr) (r : Token) (t : Expr)
  | itee (a : Ann) (kw l : Token) (c : Expr) (r : Token) (t : Expr) (ea : Ann) (el : Token)
      (e : Expr)
  | for_ (a : Ann) (kw l : Token) (v : Expr) (inn : Token) (s : Expr) (r : Token) (body : Expr)
  | while_ (a : Ann) (kw l : Token) (c : Expr) (r : Token) (body : Expr)
  | repeat_ (a : Ann) (kw : Token) (body : Expr)
/-- `RExpressionList`. (crates/air_r_syntax/src/generated/nodes.rs:4787-4790; xtask/codegen/r.ungram:270) -/
inductive Exprs where
  | nil
  | cons (e : Expr) (es : Exprs)
/-- `RArgumentList`, `RParameterList`: entries separated by commas, no trailing comma (after a
trailing comma there is a hole argument). (crates/air_r_syntax/src/generated/nodes.rs:4705-4708, 4869-4872;
xtask/codegen/r.ungram:124, 250) -/
inductive Items where
  | nil
  | last (x : Arg)
  | cons (x : Arg) (sep : Token) (xs : Items)
/-- `RArgument` and `RParameter`.
* `hole a`: argument without name and value
* `val a e`: unnamed argument, or parameter without default
* `name a na n eq`: argument `n =` without value (`na`: comments of `RArgumentNameClause`)
* `named a na n eq e`: argument `n = e`
* `pdef a n da eq e`: parameter `n = e` (`da`: comments of `RParameterDefault`)
(crates/air_r_syntax/src/generated/nodes.rs:26-30, 1036-1040; xtask/codegen/r.ungram:126-132, 252-258) -/
inductive Arg where
  | hole (a : Ann)
  | val (a : Ann) (e : Expr)
  | name (a na : Ann) (n : Expr) (eq : Token)
  | named (a na : Ann) (n : Expr) (eq : Token) (e : Expr)
  | pdef (a : Ann) (n : Expr) (da : Ann) (eq : Token) (e : Expr)
end

instance : Inhabited Expr := ⟨.atom {} .rIdentifier ⟨.ident, [], [], []⟩⟩

/-- `RRoot` without byte order mark (which never reaches the formatter, see C32).
(crates/air_r_syntax/src/generated/nodes.rs:1246-1250; xtask/codegen/r.ungram:42-45) -/
structure Root where
  ann : Ann
  es : Exprs
  eof : Token

/-- Comments attached to an expression. (`f.comments()` for the node,
crates/air_r_formatter/src/context.rs:65-67) -/
def Expr.ann : Expr → Ann
  | .atom a .. | .str a .. | .paren a .. | .braced a .. | .unary a .. | .binary a ..
  | .sel a .. | .call a .. | .func a .. | .ite a .. | .itee a .. | .for_ a ..
  | .while_ a .. | .repeat_ a .. => a

/-- Comments attached to an argument or parameter. (`f.comments()` for the node,
crates/air_r_formatter/src/context.rs:65-67) -/
def Arg.ann : Arg → Ann
  | .hole a | .val a .. | .name a .. | .named a .. | .pdef a .. => a

mutual
/-- Tokens in source order. (the tokens of the slots in the order of xtask/codegen/r.ungram:42-355) -/
def Expr.tokens : Expr → List Token
  | .atom _ _ t => [t]
  | .str _ o c l => o :: (c.toList ++ [l])
  | .paren _ l e r => l :: (e.tokens ++ [r])
  | .braced _ l es r => l :: (es.tokens ++ [r])
  | .unary _ o e => o :: e.tokens
  | .binary _ x o y => x.tokens ++ o :: y.tokens
  | .sel _ _ x o y => x.tokens ++ o :: y.tokens
  | .call _ _ f _ l items r => f.tokens ++ l :: (items.tokens ++ [r])
  | .func _ kw _ l items r b => kw :: l :: (items.tokens ++ r :: b.tokens)
  | .ite _ kw l c r t => kw :: l :: (c.tokens ++ r :: t.tokens)
  | .itee _ kw l c r t _ el e => kw :: l :: (c.tokens ++ r :: (t.tokens ++ el :: e.tokens))
  | .for_ _ kw l v i s r b => kw :: l :: (v.tokens ++ i :: (s.tokens ++ r :: b.tokens))
  | .while_ _ kw l c r b => kw :: l :: (c.tokens ++ r :: b.tokens)
  | .repeat_ _ kw b => kw :: b.tokens
/-- As for expressions, in source order (slots in the order of xtask/codegen/r.ungram:42-355). -/
def Exprs.tokens : Exprs → List Token
  | .nil => []
  | .cons e es => e.tokens ++ es.tokens
/-- As for expressions, in source order (slots in the order of xtask/codegen/r.ungram:42-355). -/
def Items.tokens : Items → List Token
  | .nil => []
  | .last x => x.tokens
  | .cons x s xs => x.tokens ++ s :: xs.tokens
/-- As for expressions, in source order (slots in the order of xtask/codegen/r.ungram:42-355). -/
def Arg.tokens : Arg → List Token
  | .hole _ => []
  | .val _ e => e.tokens
  | .name _ _ n q => n.tokens ++ [q]
  | .named _ _ n q e => n.tokens ++ q :: e.tokens
  | .pdef _ n _ q e => n.tokens ++ q :: e.tokens
end

/-- The comments attached to one node, in order. (crates/air_r_formatter/src/lib.rs:202-210: the order in which
they are formatted) -/
def Ann.all (a : Ann) : List Comment := a.leading ++ a.dangling ++ a.trailing

mutual
/-- All comments attached to a node of the subtree. (auxiliary: all of `f.comments()`,
crates/air_r_formatter/src/context.rs:65-67) -/
def Expr.comments : Expr → List Comment
  | .atom a _ _ => a.all
  | .str a _ _ _ => a.all
  | .paren a _ e _ => a.all ++ e.comments
  | .braced a _ es _ => a.all ++ es.comments
  | .unary a _ e => a.all ++ e.comments
  | .binary a x _ y => a.all ++ x.comments ++ y.comments
  | .sel a _ x _ y => a.all ++ x.comments ++ y.comments
  | .call a _ f aa _ items _ => a.all ++ f.comments ++ aa.all ++ items.comments
  | .func a _ pa _ items _ b => a.all ++ pa.all ++ items.comments ++ b.comments
  | .ite a _ _ c _ t => a.all ++ c.comments ++ t.comments
  | .itee a _ _ c _ t ea _ e => a.all ++ c.comments ++ t.comments ++ ea.all ++ e.comments
  | .for_ a _ _ v _ s _ b => a.all ++ v.comments ++ s.comments ++ b.comments
  | .while_ a _ _ c _ b => a.all ++ c.comments ++ b.comments
  | .repeat_ a _ b => a.all ++ b.comments
/-- As for expressions (all of `f.comments()`, crates/air_r_formatter/src/context.rs:65-67). -/
def Exprs.comments : Exprs → List Comment
  | .nil => []
  | .cons e es => e.comments ++ es.comments
/-- As for expressions (all of `f.comments()`, crates/air_r_formatter/src/context.rs:65-67). -/
def Items.comments : Items → List Comment
  | .nil => []
  | .last x => x.comments
  | .cons x _ xs => x.comments ++ xs.comments
/-- As for expressions (all of `f.comments()`, crates/air_r_formatter/src/context.rs:65-67). -/
def Arg.comments : Arg → List Comment
  | .hole a => a.all
  | .val a e => a.all ++ e.comments
  | .name a na n _ => a.all ++ na.all ++ n.comments
  | .named a na n _ e => a.all ++ na.all ++ n.comments ++ e.comments
  | .pdef a n da _ e => a.all ++ n.comments ++ da.all ++ e.comments
end

/-- `get_lines_before_token` (biome_formatter): line breaks in the leading trivia before the first
comment. (used in crates/air_r_formatter/src/r/auxiliary/call_arguments.rs:733,
crates/air_r_formatter/src/call_arguments_table.rs:240) -/
def linesBeforeToken (t : Token) : Nat :=
  ((t.leading.takeWhile (fun p => p.kind != .comment)).filter (fun p => p.kind == .newline)).length

/-- `get_lines_before` of a node with the given tokens (0 if it has none). (used in
crates/air_r_formatter/src/joiner_ext.rs:49, crates/air_r_formatter/src/r/auxiliary/call_arguments.rs:807,
crates/air_r_formatter/src/r/auxiliary/binary_expression.rs:784) -/
def linesBefore : List Token → Nat
  | [] => 0
  | t :: _ => linesBeforeToken t

/-- `SyntaxToken::has_leading_newline` (biome_rowan). (used in
crates/air_r_formatter/src/r/auxiliary/if_statement.rs:217) -/
def leadingNewlineToken (t : Token) : Bool := t.leading.any (fun p => p.kind == .newline)

/-- `SyntaxNode::has_leading_newline` of a node with the given tokens. (used in
crates/air_r_formatter/src/r/auxiliary/if_statement.rs:200, 223,
crates/air_r_formatter/src/r/auxiliary/function_definition.rs:154,
crates/air_r_formatter/src/r/auxiliary/binary_expression.rs:470, 927,
crates/air_r_formatter/src/r/auxiliary/parameters.rs:121) -/
def leadingNewline : List Token → Bool
  | [] => false
  | t :: _ => leadingNewlineToken t

/-- `SyntaxToken::has_leading_comments` / `has_trailing_comments` on a trivia list. (used in
crates/air_r_formatter/src/r/auxiliary/call_arguments.rs:1083) -/
def hasComment (ps : List Piece) : Bool := ps.any (fun p => p.kind == .comment)

/-- `SyntaxNode::has_comments_direct` (biome_rowan): comments in the leading trivia of the first or
the trailing trivia of the last token. (used in
crates/air_r_formatter/src/r/auxiliary/parenthesized_expression.rs:21,
crates/air_r_formatter/src/r/auxiliary/call_arguments.rs:1083) -/
def commentsDirect (ts : List Token) : Bool :=
  (match ts.head? with | some t => hasComment t.leading | none => false) ||
  (match ts.getLast? with | some t => hasComment t.trailing | none => false)

/-- Is the expression an `RBracedExpressions`? (`AnyRExpression::RBracedExpressions`,
crates/air_r_syntax/src/generated/nodes.rs:1676-1680) -/
def Expr.isBraced : Expr → Bool
  | .braced .. => true
  | _ => false

/-- Is the expression an `RIfStatement`? (`AnyRExpression::RIfStatement`,
crates/air_r_syntax/src/generated/nodes.rs:1676-1690) -/
def Expr.isIf : Expr → Bool
  | .ite .. | .itee .. => true
  | _ => false

/-- Number of expressions. (`RExpressionList::len`, crates/air_r_syntax/src/generated/nodes.rs:4787-4790) -/
def Exprs.length : Exprs → Nat
  | .nil => 0
  | .cons _ es => es.length + 1

end Verif.Format
