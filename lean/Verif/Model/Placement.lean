import Verif.Model.Ast

/-!
# Attaching comments to nodes

Models crates/air_r_formatter/src/comments.rs (which node a comment is attached to) on top of what
`biome_formatter::comments` does before and after calling it:

* For each comment the builder (`biome_formatter/src/comments/builder.rs`, not available in /repo,
  modelled after its documented contract) determines the enclosing node, i.e. the innermost node
  that begins before and ends after the comment, and the child nodes of the enclosing node before and
  after the comment. List nodes are transparent. Comments at the beginning and at the end of the file
  are enclosed by the root.
* If `place_comment` returns `CommentPlacement::Default`, the comment goes to the preceding or the
  following node depending on the line breaks around it.

Comments are visited in source order, and `Comments::leading_comments` etc. of a node have them in this
order.
-/

namespace Verif.Format
open Verif.Syntax

mutual
/-- A syntax tree without list nodes and empty slots. (crates/air_r_syntax/src/generated/nodes.rs, without
crates/air_r_syntax/src/generated/nodes.rs:4705-4950; xtask/codegen/r.ungram:42-355) -/
inductive View where
  | node (k : Kind) (ps : Parts)
/-- The children of a node: tokens and nodes. (slots of crates/air_r_syntax/src/generated/nodes.rs;
xtask/codegen/r.ungram:42-355) -/
inductive Parts where
  | nil
  | tok (t : Token) (ps : Parts)
  | sub (x : View) (ps : Parts)
end

/-! ## Trees of programs -/

/-- Kind of a call and of its arguments. (crates/air_r_syntax/src/generated/nodes.rs:231-235, 1336-1340,
1376-1380) -/
def CallKind.node : CallKind → Kind
  | .call => .rCall
  | .subset => .rSubset
  | .subset2 => .rSubset2
/-- Kind of the node for the arguments (crates/air_r_syntax/src/generated/nodes.rs:271-275, 1416-1420,
1461-1465). -/
def CallKind.args : CallKind → Kind
  | .call => .rCallArguments
  | .subset => .rSubsetArguments
  | .subset2 => .rSubset2Arguments

/-- Kind of a selection. (crates/air_r_syntax/src/generated/nodes.rs:496-500, 886-890) -/
def SelKind.node : SelKind → Kind
  | .extract => .rExtractExpression
  | .namespace => .rNamespaceExpression

/-- A single token as last child. (auxiliary for `Expr.view`) -/
def Parts.one (t : Token) : Parts := .tok t .nil

mutual
/-- The tree of an expression (`xtask/codegen/r.ungram`). (xtask/codegen/r.ungram:50-355) -/
def Expr.view : Expr → View
  | .atom _ k t => .node k (.one t)
  | .str _ o c l => .node .rStringValue (.tok o (match c with | some c => .tok c (.one l) | none => .one l))
  | .paren _ l e r => .node .rParenthesizedExpression (.tok l (.sub e.view (.one r)))
  | .braced _ l es r => .node .rBracedExpressions (.tok l (es.view r))
  | .unary _ o e => .node .rUnaryExpression (.tok o (.sub e.view .nil))
  | .binary _ x o y => .node .rBinaryExpression (.sub x.view (.tok o (.sub y.view .nil)))
  | .sel _ k x o y => .node k.node (.sub x.view (.tok o (.sub y.view .nil)))
  | .call _ k f _ l items r =>
    .node k.node (.sub f.view (.sub (.node k.args (.tok l (items.view true r))) .nil))
  | .func _ kw _ l items r b =>
    .node .rFunctionDefinition
      (.tok kw (.sub (.node .rParameters (.tok l (items.view false r))) (.sub b.view .nil)))
  | .ite _ kw l c r t =>
    .node .rIfStatement (.tok kw (.tok l (.sub c.view (.tok r (.sub t.view .nil)))))
  | .itee _ kw l c r t _ el e =>
    .node .rIfStatement (.tok kw (.tok l (.sub c.view (.tok r (.sub t.view
      (.sub (.node .rElseClause (.tok el (.sub e.view .nil))) .nil))))))
  | .for_ _ kw l v i s r b =>
    .node .rForStatement (.tok kw (.tok l (.sub v.view (.tok i (.sub s.view (.tok r (.sub b.view .nil)))))))
  | .while_ _ kw l c r b =>
    .node .rWhileStatement (.tok kw (.tok l (.sub c.view (.tok r (.sub b.view .nil)))))
  | .repeat_ _ kw b => .node .rRepeatStatement (.tok kw (.sub b.view .nil))
/-- Expressions followed by a token. (xtask/codegen/r.ungram:42-45, 186-190, 270) -/
def Exprs.view (r : Token) : Exprs → Parts
  | .nil => .one r
  | .cons e es => .sub e.view (es.view r)
/-- Arguments (`call`) or parameters with their separators, followed by a token.
(xtask/codegen/r.ungram:119-132, 206-209, 250-258) -/
def Items.view (call : Bool) (r : Token) : Items → Parts
  | .nil => .one r
  | .last x => .sub (x.view call) (.one r)
  | .cons x s xs => .sub (x.view call) (.tok s (xs.view call r))
/-- An argument or parameter (xtask/codegen/r.ungram:126-132, 252-258). -/
def Arg.view (call : Bool) : Arg → View
  | .hole _ => .node (if call then .rArgument else .rParameter) .nil
  | .val _ e => .node (if call then .rArgument else .rParameter) (.sub e.view .nil)
  | .name _ _ n q =>
    .node (if call then .rArgument else .rParameter)
      (.sub (.node .rArgumentNameClause (.sub n.view (.one q))) .nil)
  | .named _ _ n q e =>
    .node (if call then .rArgument else .rParameter)
      (.sub (.node .rArgumentNameClause (.sub n.view (.one q))) (.sub e.view .nil))
  | .pdef _ n _ q e =>
    .node (if call then .rArgument else .rParameter)
      (.sub n.view (.sub (.node .rParameterDefault (.tok q (.sub e.view .nil))) .nil))
end

/-- The tree of a file. (xtask/codegen/r.ungram:42-45) -/
def Root.view (x : Root) : View := .node .rRoot (x.es.view x.eof)

/-! ## Decorated comments -/

/-- Nodes are identified by the positions of their ancestors among the children of theirs. (stands for the
identity of a `SyntaxNode`, crates/air_r_formatter/src/comments.rs:107-1019) -/
abbrev Ref := List Nat

/-- `CommentTextPosition`. (external; crates/air_r_formatter/src/comments.rs:78-100) -/
inductive Position | endOfLine | ownLine | sameLine
  deriving DecidableEq, Repr

/-- `DecoratedComment`. `early`: the comment belongs to the trivia of the token before; `gap`: the
position of the child of the enclosing node with the following token. (external; the argument of
crates/air_r_formatter/src/comments.rs:74-105) -/
structure Deco where
  text : List Byte
  before : Nat
  after : Nat
  early : Bool
  position : Position
  enclosing : View
  ref : Ref
  gap : Nat
  preceding : Option (Nat × View)
  following : Option (Nat × View)
  followingToken : Kind

mutual
/-- First and last token of a tree. (biome_rowan, external; behind
crates/air_r_formatter/src/comments.rs:107-1019) -/
def View.first : View → Option Token
  | .node _ ps => ps.first
/-- First token of the children (biome_rowan, external; behind crates/air_r_formatter/src/comments.rs:107-1019). -/
def Parts.first : Parts → Option Token
  | .nil => none
  | .tok t _ => some t
  | .sub x ps => match x.first with | some t => some t | none => ps.first
end

mutual
/-- `SyntaxNode::last_token` (biome_rowan, external; behind crates/air_r_formatter/src/comments.rs:107-1019). -/
def View.last : View → Option Token
  | .node _ ps => ps.last
/-- Last token of the children (biome_rowan, external; behind crates/air_r_formatter/src/comments.rs:107-1019). -/
def Parts.last : Parts → Option Token
  | .nil => none
  | .tok t ps => match ps.last with | some u => some u | none => some t
  | .sub x ps => match ps.last with | some u => some u | none => x.last
end

/-- The first child node at or after a position. (the following node of
crates/air_r_formatter/src/comments.rs:107-1019; external) -/
def Parts.firstSub (i : Nat) : Parts → Option (Nat × View)
  | .nil => none
  | .tok _ ps => ps.firstSub (i + 1)
  | .sub x _ => some (i, x)

/-- A comment between two tokens: its text, whether it belongs to the first one, whether there is a line
break before it, and the line breaks before and after it up to the next comment or token. (external; behind
crates/air_r_formatter/src/lib.rs:325-330) -/
structure Scanned where
  text : List Byte
  early : Bool
  own : Bool
  before : Nat
  after : Nat
  deriving DecidableEq, Repr

/-- The comments in the trivia between two tokens (`visit_token` of the builder); the next `m` pieces
belong to the first token; `n` line breaks since the previous comment, `own`: any line break. (external; behind
crates/air_r_formatter/src/lib.rs:325-330) -/
def scan (m n : Nat) (own : Bool) : List Piece → List Scanned
  | [] => []
  | p :: ps =>
    match p.kind with
    | .newline => scan (m - 1) (n + 1) true ps
    | .whitespace => scan (m - 1) n own ps
    | .comment =>
      let rest := ps.takeWhile (fun p => p.kind != .comment)
      ⟨p.text, decide (0 < m), own, n, (rest.filter (fun p => p.kind == .newline)).length⟩ ::
        scan (m - 1) 0 own ps

/-- Trailing trivia of the previous token, if any. (external; behind crates/air_r_formatter/src/lib.rs:325-330) -/
def trailingOf : Option Token → List Piece
  | some t => t.trailing
  | none => []

/-- The comments before the token `u`, the first token of child `gap`. A comment after which there is no
line break before the next token is the last thing in the file. (external; the arguments of
crates/air_r_formatter/src/comments.rs:74-105) -/
def gapDecos (x : View) (r : Ref) (gap : Nat) (prec foll : Option (Nat × View)) (prev : Option Token)
    (u : Token) : List Deco :=
  let ps := trailingOf prev ++ u.leading
  let eol := if ps.any (fun p => p.kind == .newline) then .endOfLine else .sameLine
  (scan (trailingOf prev).length 0 false ps).map fun c =>
    ⟨c.text, c.before, c.after, c.early, if c.own then .ownLine else eol, x, r, gap, prec, foll, u.kind⟩

/-- The comments before the child node `y`, if it has a first token. (external; the arguments of
crates/air_r_formatter/src/comments.rs:74-105) -/
def subDecos (x : View) (r : Ref) (i : Nat) (prec : Option (Nat × View)) (inside : Bool)
    (prev : Option Token) (y : View) : List Deco :=
  match y.first with
  | some t => if inside then gapDecos x r i prec (some (i, y)) prev t else []
  | none => []

/-- The last token so far. (external; behind crates/air_r_formatter/src/lib.rs:325-330) -/
def View.lastOr (prev : Option Token) (y : View) : Option Token :=
  match y.last with
  | some t => some t
  | none => prev

mutual
/-- The comments enclosed by a node and its descendants, in source order. `start`: the trivia before the
first token is enclosed as well. (external; the arguments of crates/air_r_formatter/src/comments.rs:74-105) -/
def View.decos (r : Ref) (start : Bool) : View → List Deco
  | .node k ps => ps.decos (.node k ps) r 0 none start none
/-- The same for the children from position `i`, after `prec`; `inside`: there was a token. (external; the
arguments of crates/air_r_formatter/src/comments.rs:74-105) -/
def Parts.decos (x : View) (r : Ref) (i : Nat) (prec : Option (Nat × View)) (inside : Bool)
    (prev : Option Token) : Parts → List Deco
  | .nil => []
  | .tok t ps =>
    (if inside then gapDecos x r i prec (ps.firstSub (i + 1)) prev t else []) ++
      ps.decos x r (i + 1) prec true (some t)
  | .sub y ps =>
    subDecos x r i prec inside prev y ++ y.decos (r ++ [i]) false ++
      ps.decos x r (i + 1) (some (i, y)) (inside || y.first.isSome) (y.lastOr prev)
end

/-! ## Placement -/

/-- How a comment is attached to a node. (external; the results of
crates/air_r_formatter/src/comments.rs:74-105) -/
inductive Where | leading | dangling | trailing
  deriving DecidableEq, Repr

/-- `CommentPlacement` after resolution of the default. (external; the result of
crates/air_r_formatter/src/comments.rs:74-105) -/
structure Placement where
  place : Where
  target : Ref
  deriving DecidableEq, Repr

/-- Kind of a node. (`SyntaxNode::kind`, e.g. crates/air_r_formatter/src/comments.rs:108-120) -/
def View.kind : View → Kind
  | .node k _ => k

/-- Children of a node. (`SyntaxNode::slots`; external) -/
def View.parts : View → Parts
  | .node _ ps => ps

/-- The child node at a position, e.g. the body of a loop. (e.g. the fields in
crates/air_r_formatter/src/comments.rs:107-200) -/
def Parts.slot (n : Nat) : Parts → Option View
  | .nil => none
  | .tok _ ps => match n with | 0 => none | n + 1 => ps.slot n
  | .sub x ps => match n with | 0 => some x | n + 1 => ps.slot n

/-- The last child node before position `n` (`prev_sibling`). (crates/air_r_formatter/src/comments.rs:940) -/
def Parts.prevSub (n : Nat) : Nat → Parts → Option (Nat × View)
  | _, .nil => none
  | i, .tok _ ps => if i < n then ps.prevSub n (i + 1) else none
  | i, .sub x ps =>
    if i < n then match ps.prevSub n (i + 1) with | some y => some y | none => some (i, x) else none

/-- `RArgument::is_hole` (crates/air_r_syntax/src/argument_ext.rs).
(crates/air_r_syntax/src/argument_ext.rs:16-18) -/
def View.isHole (x : View) : Bool :=
  x.kind == .rArgument && (match x.parts with | .nil => true | _ => false)

/-- The position of a child. (auxiliary: a field of a node, e.g. crates/air_r_formatter/src/comments.rs:107-200) -/
def at? (x : Option (Nat × View)) : Option Nat := x.map Prod.fst

/-- `place_leading_or_dangling_body_comment` (comments.rs:1008-1019). -/
def placeBody (r : Ref) (body : View) : Placement :=
  if body.kind = .rBracedExpressions then
    match body.parts.firstSub 0 with
    | some (i, _) => ⟨.leading, r ++ [i]⟩
    | none => ⟨.dangling, r⟩
  else ⟨.leading, r⟩

/-- `place_leading_or_dangling_alternative_comment` (comments.rs:655-666). -/
def placeAlternative (r : Ref) (alternative : View) : Option Placement :=
  if alternative.kind = .rIfStatement then
    match alternative.parts.slot 4 with
    | some consequence => some (placeBody (r ++ [4]) consequence)
    | none => none
  else some (placeBody r alternative)

/-- `handle_for_comment` (comments.rs:107-203) and `handle_while_comment` (comments.rs:205-289); `n`: the
position of the body. -/
def handleLoop (k : Kind) (n : Nat) (c : Deco) : Option Placement :=
  if c.enclosing.kind = k then
    match c.enclosing.parts.slot n with
    | some body =>
      if at? c.following = some n ∧ c.followingToken ≠ .rParen then some (placeBody (c.ref ++ [n]) body)
      else some ⟨.leading, c.ref⟩
    | none => some ⟨.leading, c.ref⟩
  else none

/-- `handle_function_comment` (comments.rs:344-400). -/
def handleFunction (c : Deco) : Option Placement :=
  if c.enclosing.kind = .rFunctionDefinition then
    if at? c.following = some 1 then some ⟨.leading, c.ref⟩
    else
      match c.enclosing.parts.slot 2 with
      | some body => if at? c.following = some 2 then some (placeBody (c.ref ++ [2]) body) else none
      | none => none
  else none

/-- `handle_repeat_comment` (comments.rs:291-342). -/
def handleRepeat (c : Deco) : Option Placement :=
  if c.enclosing.kind = .rRepeatStatement then
    match c.enclosing.parts.slot 1 with
    | some body => some (placeBody (c.ref ++ [1]) body)
    | none => some ⟨.leading, c.ref⟩
  else none

/-- `handle_if_statement_comment` (comments.rs:402-596). Position 2: condition, 4: consequence, 5: else
clause with the alternative at its position 1. -/
def handleIf (c : Deco) : Option Placement :=
  if c.enclosing.kind = .rIfStatement then
    match c.enclosing.parts.slot 2, c.enclosing.parts.slot 4 with
    | some _, some consequence =>
      if at? c.preceding = some 2 ∧ c.followingToken = .rParen then some ⟨.trailing, c.ref ++ [2]⟩
      else if at? c.following = some 4 then some (placeBody (c.ref ++ [4]) consequence)
      else
        match c.enclosing.parts.slot 5 with
        | some clause =>
          match clause.parts.slot 1 with
          | some alternative =>
            if clause.kind = .rElseClause ∧ at? c.following = some 5 then
              match c.position with
              | .endOfLine => some (placeBody (c.ref ++ [4]) consequence)
              | _ => placeAlternative (c.ref ++ [5, 1]) alternative
            else none
          | none => none
        | none => none
    | _, _ => none
  else none

/-- `handle_else_clause_comment` (comments.rs:598-637). -/
def handleElse (c : Deco) : Option Placement :=
  if c.enclosing.kind = .rElseClause then
    match c.enclosing.parts.slot 1 with
    | some alternative =>
      if at? c.following = some 1 then placeAlternative (c.ref ++ [1]) alternative else none
    | none => none
  else none

/-- `handle_parenthesized_expression_comment` (comments.rs:668-709). -/
def handleParen (c : Deco) : Option Placement :=
  if c.enclosing.kind = .rParenthesizedExpression then
    if at? c.following = some 1 then some ⟨.leading, c.ref ++ [1]⟩
    else if at? c.preceding = some 1 then some ⟨.trailing, c.ref ++ [1]⟩
    else none
  else none

/-- `handle_argument_name_clause_comment` (comments.rs:711-741). -/
def handleNameClause (c : Deco) : Option Placement :=
  if c.enclosing.kind = .rArgumentNameClause ∧ at? c.preceding = some 0 then
    some ⟨.leading, c.ref ++ [0]⟩
  else none

/-- `handle_argument_comment` (comments.rs:743-782). -/
def handleArgument (c : Deco) : Option Placement :=
  if c.enclosing.kind = .rArgument ∧ at? c.preceding = some 0 ∧
      (c.enclosing.parts.slot 0).map View.kind = some .rArgumentNameClause then
    some ⟨.leading, c.ref ++ [0]⟩
  else none

/-- `handle_hole_argument_comment` (comments.rs:784-962). -/
def handleHole (c : Deco) : Option Placement :=
  match c.preceding with
  | some (i, hole) =>
    if hole.isHole then
      if c.followingToken = .comma ∨ c.followingToken = .rParen ∨ c.followingToken = .rBrack ∨
          c.followingToken = .rBrack2 then
        match c.enclosing.parts.prevSub i 0 with
        | some (j, y) =>
          if y.kind = .rArgument ∧ y.isHole = false then some ⟨.trailing, c.ref ++ [j]⟩
          else some ⟨.leading, c.ref ++ [i]⟩
        | none => some ⟨.leading, c.ref ++ [i]⟩
      else
        match c.following with
        | some (j, y) =>
          if y.kind = .rArgument ∧ y.isHole = false then some ⟨.leading, c.ref ++ [j]⟩
          else some ⟨.leading, c.ref ++ [i]⟩
        | none => some ⟨.leading, c.ref ++ [i]⟩
    else none
  | none => none

/-- `CommentPlacement::or_else`. (external; crates/air_r_formatter/src/comments.rs:79-98) -/
def orElse (c : Deco) (f : Deco → Option Placement) : Option Placement → Option Placement
  | some p => some p
  | none => f c

/-- Where a comment goes by default (`CommentsBuilder::add_comment` of biome_formatter). On the same line
(no line break after the comment, i.e. at the end of the file) the preceding node is only taken if it
ends right before the comment; there it always does, unless there is none. (external; `Default` of
crates/air_r_formatter/src/comments.rs:74-105) -/
def placeDefault (c : Deco) : Placement :=
  match c.position, c.preceding, c.following with
  | .ownLine, _, some (j, _) => ⟨.leading, c.ref ++ [j]⟩
  | .ownLine, some (i, _), none => ⟨.trailing, c.ref ++ [i]⟩
  | _, some (i, _), _ => ⟨.trailing, c.ref ++ [i]⟩
  | _, none, some (j, _) => ⟨.leading, c.ref ++ [j]⟩
  | _, none, none => ⟨.dangling, c.ref⟩

/-- `place_comment` (comments.rs:70-104) and the default. -/
def placeComment (c : Deco) : Placement :=
  match c.position with
  | .sameLine => placeDefault c
  | _ =>
    (orElse c handleHole <| orElse c handleArgument <| orElse c handleNameClause <|
      orElse c handleParen <| orElse c handleElse <| orElse c handleIf <| orElse c handleRepeat <|
      orElse c (handleLoop .rWhileStatement 4) <| orElse c handleFunction <|
      handleLoop .rForStatement 6 c).getD (placeDefault c)

/-! ## Trees with comments -/

/-- Does the gap before the child `g` come before the node `q`? References are compared from the left, a
prefix comes first. (auxiliary for `Deco.precedes`) -/
def Ref.le : Ref → Ref → Bool
  | [], _ => true
  | _ :: _, [] => false
  | a :: as, b :: bs => a < b || (a == b && Ref.le as bs)

/-- A comment that has been attached. (external; behind crates/air_r_formatter/src/lib.rs:312-322) -/
structure Placed where
  to : Placement
  comment : Comment
  deriving DecidableEq, Repr

/-- The comment ends before the node `q` starts. A hole starts after the trivia of the token before. (external;
behind crates/air_r_formatter/src/lib.rs:227-229) -/
def Deco.precedes (c : Deco) (q : Ref) : Bool :=
  Ref.le (c.ref ++ [c.gap]) q ||
  (c.early && q == c.ref ++ [c.gap - 1] &&
    (match c.enclosing.parts.slot (c.gap - 1) with | some y => y.first.isNone | none => false))

/-- Attach a comment. What `FormatVerbatimNode` asks: does a leading comment end before the node starts,
does a trailing comment end after the node? (external; crates/air_r_formatter/src/comments.rs:74-105,
crates/air_r_formatter/src/lib.rs:227-229) -/
def Deco.placed (c : Deco) : Placed :=
  let p := placeComment c
  ⟨p, ⟨c.text, c.before, c.after,
    match p.place with
    | .leading => !c.precedes p.target
    | _ => p.target.isPrefixOf c.ref⟩⟩

/-- The comments attached to the node `r`. (external; crates/air_r_formatter/src/context.rs:65-67) -/
def annAt (P : List Placed) (r : Ref) : Ann :=
  let at_ (w : Where) := (P.filter (fun p => p.to == ⟨w, r⟩)).map Placed.comment
  ⟨at_ .leading, at_ .dangling, at_ .trailing⟩

mutual
/-- The tree with comments attached to its nodes. (external; crates/air_r_formatter/src/context.rs:65-67) -/
def Expr.annotate (P : List Placed) (r : Ref) : Expr → Expr
  | .atom _ k t => .atom (annAt P r) k t
  | .str _ o c l => .str (annAt P r) o c l
  | .paren _ l e t => .paren (annAt P r) l (e.annotate P (r ++ [1])) t
  | .braced _ l es t => .braced (annAt P r) l (es.annotate P r 1) t
  | .unary _ o e => .unary (annAt P r) o (e.annotate P (r ++ [1]))
  | .binary _ x o y => .binary (annAt P r) (x.annotate P (r ++ [0])) o (y.annotate P (r ++ [2]))
  | .sel _ k x o y => .sel (annAt P r) k (x.annotate P (r ++ [0])) o (y.annotate P (r ++ [2]))
  | .call _ k f _ l items t =>
    .call (annAt P r) k (f.annotate P (r ++ [0])) (annAt P (r ++ [1])) l
      (items.annotate P (r ++ [1]) 1) t
  | .func _ kw _ l items t b =>
    .func (annAt P r) kw (annAt P (r ++ [1])) l (items.annotate P (r ++ [1]) 1) t
      (b.annotate P (r ++ [2]))
  | .ite _ kw l c t b =>
    .ite (annAt P r) kw l (c.annotate P (r ++ [2])) t (b.annotate P (r ++ [4]))
  | .itee _ kw l c t b _ el e =>
    .itee (annAt P r) kw l (c.annotate P (r ++ [2])) t (b.annotate P (r ++ [4])) (annAt P (r ++ [5])) el
      (e.annotate P (r ++ [5, 1]))
  | .for_ _ kw l v i s t b =>
    .for_ (annAt P r) kw l (v.annotate P (r ++ [2])) i (s.annotate P (r ++ [4])) t
      (b.annotate P (r ++ [6]))
  | .while_ _ kw l c t b =>
    .while_ (annAt P r) kw l (c.annotate P (r ++ [2])) t (b.annotate P (r ++ [4]))
  | .repeat_ _ kw b => .repeat_ (annAt P r) kw (b.annotate P (r ++ [1]))
/-- Expressions at positions from `i`. (external; crates/air_r_formatter/src/context.rs:65-67) -/
def Exprs.annotate (P : List Placed) (r : Ref) (i : Nat) : Exprs → Exprs
  | .nil => .nil
  | .cons e es => .cons (e.annotate P (r ++ [i])) (es.annotate P r (i + 1))
/-- Arguments or parameters at positions from `i`, separators in between. (external;
crates/air_r_formatter/src/context.rs:65-67) -/
def Items.annotate (P : List Placed) (r : Ref) (i : Nat) : Items → Items
  | .nil => .nil
  | .last x => .last (x.annotate P (r ++ [i]))
  | .cons x s xs => .cons (x.annotate P (r ++ [i])) s (xs.annotate P r (i + 2))
/-- An argument or parameter with its comments (external; crates/air_r_formatter/src/context.rs:65-67). -/
def Arg.annotate (P : List Placed) (r : Ref) : Arg → Arg
  | .hole _ => .hole (annAt P r)
  | .val _ e => .val (annAt P r) (e.annotate P (r ++ [0]))
  | .name _ _ n q => .name (annAt P r) (annAt P (r ++ [0])) (n.annotate P (r ++ [0, 0])) q
  | .named _ _ n q e =>
    .named (annAt P r) (annAt P (r ++ [0])) (n.annotate P (r ++ [0, 0])) q (e.annotate P (r ++ [1]))
  | .pdef _ n _ q e =>
    .pdef (annAt P r) (n.annotate P (r ++ [0])) (annAt P (r ++ [1])) q (e.annotate P (r ++ [1, 1]))
end

/-- All comments of a file, attached. (external; crates/air_r_formatter/src/lib.rs:312-322) -/
def Root.placed (x : Root) : List Placed := (x.view.decos [] true).map Deco.placed

/-- The file with its comments attached (`Comments::from_node`). (external;
crates/air_r_formatter/src/lib.rs:312-322) -/
def Root.attach (x : Root) : Root :=
  ⟨annAt x.placed [], x.es.annotate x.placed [] 0, x.eof⟩

end Verif.Format
