import Verif.Model.Syntax

/-!
# The parser bridge

Models `crates/air_r_parser/src/parse.rs`: the walk over the tree returned by tree-sitter that
produces parse events and trivia, and the tree sink that turns them into a syntax tree.

tree-sitter itself is not modelled: its result is an arbitrary tree of nodes with kind, field name
and byte range. The kind of a node is the one given by `node_syntax_kind`
(`crates/air_r_parser/src/treesitter.rs:87-183`), which is a table from names to kinds. The
preorder iterator (`treesitter.rs:23-85`) is modelled in `Verif.Model.Preorder`; here its loops are
recursions over the tree. Panics are `none`. Slicing the text is done on bytes; that tree-sitter
positions lie on character boundaries is assumed.
-/

namespace Verif.Parser

open Syntax

/-- Field names the walk distinguishes (`parse.rs:886`, `parse.rs:1005`). -/
inductive Field where
  | none | name | arguments | other
  deriving DecidableEq, Repr

/-- A node of the tree-sitter tree. (tree_sitter, external; read by crates/air_r_parser/src/treesitter.rs:6-88
and crates/air_r_parser/src/parse.rs:255-1075) -/
inductive TsNode where
  | mk (kind : Kind) (field : Field) (start stop : Nat) (children : List TsNode)

/-- `Node::kind` (tree_sitter, external; used in crates/air_r_parser/src/parse.rs:255-680). -/
def TsNode.kind : TsNode → Kind | .mk k _ _ _ _ => k
/-- `Node::field_name` (tree_sitter, external; used in crates/air_r_parser/src/parse.rs:255-680). -/
def TsNode.field : TsNode → Field | .mk _ f _ _ _ => f
/-- `Node::start_byte` (tree_sitter, external; used in crates/air_r_parser/src/parse.rs:255-680). -/
def TsNode.start : TsNode → Nat | .mk _ _ s _ _ => s
/-- `Node::end_byte` (tree_sitter, external; used in crates/air_r_parser/src/parse.rs:255-680). -/
def TsNode.stop : TsNode → Nat | .mk _ _ _ e _ => e
/-- `Node::children` (tree_sitter, external; used in crates/air_r_parser/src/parse.rs:255-680). -/
def TsNode.children : TsNode → List TsNode | .mk _ _ _ _ cs => cs

/-- `biome_parser::event::Event`; air always has `forward_parent: None` (`parse.rs:1089-1094`). -/
inductive Event where
  | start (kind : Kind)
  | token (kind : Kind) (stop : Nat)
  | finish
  deriving DecidableEq, Repr

/-- `biome_parser::prelude::Trivia`. (biome_parser, external; crates/air_r_parser/src/parse.rs:1108-1110) -/
structure Trivia where
  kind : PieceKind
  start : Nat
  stop : Nat
  trailing : Bool
  deriving DecidableEq, Repr

/-- `&text[a..b]`; panics unless `a ≤ b ≤ text.len()`. (std, external; e.g.
crates/air_r_parser/src/parse.rs:625-680) -/
def slice (text : List Byte) (a b : Nat) : Option (List Byte) :=
  if a ≤ b ∧ b ≤ text.length then some ((text.drop a).take (b - a)) else none

/-- `RParse::is_whitespace` (`parse.rs:1225-1233`). The byte class `WHS` of `biome_unicode_table`
is tab, line feed, vertical tab, form feed, carriage return and space, `SEM` is the semicolon. -/
def isWhitespace (b : Byte) : Bool :=
  b == 9 || b == 11 || b == 12 || b == 32 || b == 59

/-- The loop of `RParse::derive_trivia` pushing leading trivia (`parse.rs:1176-1222`). `start` is
the start of the current run of whitespace, `stop` the current position. -/
def leadTrivia : List Byte → Nat → Nat → Option (List Trivia)
  | [], start, stop => some (if start = stop then [] else [⟨.whitespace, start, stop, false⟩])
  | 13 :: 10 :: bs, start, stop => do
    let r ← leadTrivia bs (stop + 2) (stop + 2)
    some ((if start = stop then [] else [⟨.whitespace, start, stop, false⟩]) ++
      ⟨.newline, stop, stop + 2, false⟩ :: r)
  | b :: bs, start, stop =>
    if isWhitespace b then leadTrivia bs start (stop + 1)
    else if b = 13 ∨ b = 10 then do
      let r ← leadTrivia bs (stop + 1) (stop + 1)
      some ((if start = stop then [] else [⟨.whitespace, start, stop, false⟩]) ++
        ⟨.newline, stop, stop + 1, false⟩ :: r)
    else none

/-- `RParse::derive_trivia` (`parse.rs:1131-1223`). -/
def deriveTrivia (gap : List Byte) (start : Nat) (between : Bool) : Option (List Trivia) :=
  if between then
    let ws := gap.takeWhile fun b => !(b == 13 || b == 10)
    let rest := gap.dropWhile fun b => !(b == 13 || b == 10)
    let mid := start + ws.length
    do
      let r ← leadTrivia rest mid mid
      some ((if start = mid then [] else [⟨.whitespace, start, mid, !rest.isEmpty⟩]) ++ r)
  else leadTrivia gap start start

/-- The part of `RWalk` (`parse.rs:201-206`) concerned with positions. -/
structure Pos where
  trivia : List Trivia
  lastEnd : Nat
  between : Bool
  deriving DecidableEq, Repr

/-- `RWalk` (`parse.rs:201-206`). -/
structure Walk where
  events : List Event
  pos : Pos
  deriving DecidableEq, Repr

/-- `RWalk::new` (`parse.rs:209-217`). -/
def Walk.new : Walk := ⟨[], ⟨[], 0, false⟩⟩

/-- Trivia before a token and new position, from `RWalk::handle_token` (`parse.rs:625-639`). -/
def tokenStep (text : List Byte) (s e : Nat) (p : Pos) : Option Pos := do
  let gap ← slice text p.lastEnd s
  let ts ← deriveTrivia gap p.lastEnd p.between
  some ⟨p.trivia ++ ts, e, true⟩

/-- `RWalk::handle_comment_leave` (`parse.rs:645-680`). -/
def commentStep (text : List Byte) (s e : Nat) (p : Pos) : Option Pos := do
  let gap ← slice text p.lastEnd s
  if gap.contains 10 then
    let ts ← deriveTrivia gap p.lastEnd p.between
    some ⟨p.trivia ++ ts ++ [⟨.comment, s, e, false⟩], e, p.between⟩
  else
    let ws := if s = p.lastEnd then [] else [⟨.whitespace, p.lastEnd, s, p.between⟩]
    some ⟨p.trivia ++ ws ++ [⟨.comment, s, e, p.between⟩], e, p.between⟩

/-- Trivia before the end of the file, from `RWalk::handle_root_leave` (`parse.rs:603-623`). -/
def rootStep (text : List Byte) (e : Nat) (p : Pos) : Option Pos := do
  let gap ← slice text p.lastEnd e
  let ts ← deriveTrivia gap p.lastEnd false
  some ⟨p.trivia ++ ts, p.lastEnd, false⟩

/-- `RParse::start` (crates/air_r_parser/src/parse.rs:1089-1094). -/
def Walk.start (w : Walk) (k : Kind) : Walk := { w with events := w.events ++ [.start k] }
/-- `RParse::finish` (crates/air_r_parser/src/parse.rs:1100-1102). -/
def Walk.finish (w : Walk) : Walk := { w with events := w.events ++ [.finish] }

/-- `RWalk::handle_token` (`parse.rs:625-639`). -/
def Walk.token (text : List Byte) (w : Walk) (k : Kind) (s e : Nat) : Option Walk :=
  (tokenStep text s e w.pos).map fun p => ⟨w.events ++ [.token k e], p⟩

/-- The cases of `RWalk::handle_enter` and `RWalk::handle_leave` (`parse.rs:256-561`). -/
inductive Class where
  | root
  | node                      -- `handle_node_enter`, `handle_string_value_enter`
  | call (args : Kind)        -- `handle_call_like_enter`
  | parameters | parameter | ifStatement | argument | braced
  | value (literal : Kind)    -- `handle_value_enter`
  | atom (literal : Kind)     -- `handle_integer_value_enter`, `handle_complex_value_enter`
  | content                   -- `handle_string_content_enter`
  | token | comment | unreachable
  deriving DecidableEq, Repr

/-- Dispatch of `RWalk::handle_enter` and `RWalk::handle_leave` (`parse.rs:256-561`). -/
def classify : Kind → Class
  | .rRoot => .root
  | .rUnaryExpression | .rBinaryExpression | .rFunctionDefinition | .rForStatement
  | .rWhileStatement | .rRepeatStatement | .rParenthesizedExpression | .rExtractExpression
  | .rNamespaceExpression | .rNaExpression | .rStringValue => .node
  | .rCall => .call .rCallArguments
  | .rSubset => .call .rSubsetArguments
  | .rSubset2 => .call .rSubset2Arguments
  | .rParameters => .parameters
  | .rParameter => .parameter
  | .rIfStatement => .ifStatement
  | .rArgument => .argument
  | .rBracedExpressions => .braced
  | .rDoubleValue => .value .rDoubleLiteral
  | .rIdentifier => .value .ident
  | .rDots => .value .dots
  | .rDotDotI => .value .dotdoti
  | .rNextExpression => .value .nextKw
  | .rBreakExpression => .value .breakKw
  | .rTrueExpression => .value .trueKw
  | .rFalseExpression => .value .falseKw
  | .rNullExpression => .value .nullKw
  | .rInfExpression => .value .infKw
  | .rNanExpression => .value .nanKw
  | .rIntegerValue => .atom .rIntegerLiteral
  | .rComplexValue => .atom .rComplexLiteral
  | .stringContent => .content
  | .comment => .comment
  | .semicolon | .comma | .tilde | .assign | .superAssign | .walrus | .assignRight
  | .superAssignRight | .equal | .orOp | .andOp | .or2 | .and2 | .lessThan | .lessThanOrEqualTo
  | .greaterThan | .greaterThanOrEqualTo | .equal2 | .notEqual | .plus | .minus | .multiply
  | .divide | .exponentiate | .exponentiate2 | .pipe | .special | .colon | .colon2 | .colon3
  | .dollar | .atSign | .bang | .wat | .backslash | .stringOpen | .stringClose | .functionKw
  | .forKw | .inKw | .whileKw | .repeatKw | .ifKw | .elseKw | .naLogicalKw | .naIntegerKw
  | .naDoubleKw | .naComplexKw | .naCharacterKw | .lParen | .rParen | .lBrack | .rBrack
  | .lBrack2 | .rBrack2 | .lCurly | .rCurly => .token
  | _ => .unreachable

/-- Delimiters of an argument list (`parse.rs:935-940`). -/
def delimiters : Kind → Option (Kind × Kind)
  | .rCallArguments => some (.lParen, .rParen)
  | .rSubsetArguments => some (.lBrack, .rBrack)
  | .rSubset2Arguments => some (.lBrack2, .rBrack2)
  | _ => Option.none

/-- The loops over the children of a node, with their local variables.
(crates/air_r_parser/src/parse.rs:219-231, 682-712, 717-750, 806-843, 848-874, 929-984, 989-1032) -/
inductive Loop where
  | plain                                -- `RWalk::walk` (`parse.rs:219-226`)
  | parameters                           -- `parse.rs:682-710`
  | parameter (usedEqual : Bool)         -- `parse.rs:716-752`
  | ifStatement (usedElse : Bool)        -- `parse.rs:808-846`
  | braced                               -- `parse.rs:852-876`
  | call (args : Kind)                   -- `parse.rs:882-904`
  | arguments (op cl prev : Kind)        -- `parse.rs:929-983`
  | argument (seenEqual : Bool)          -- `parse.rs:989-1030`
  deriving DecidableEq, Repr

/-- An empty argument (`parse.rs:1048-1075`). -/
def Walk.hole (w : Walk) : Walk := (w.start .rArgument).finish

/-- Kinds a name of an argument may have (`parse.rs:1002-1006`). -/
def isNameKind : Kind → Bool
  | .rIdentifier | .rStringValue | .rDots | .rDotDotI | .rNullExpression => true
  | _ => false

/-- What a loop does before walking a child of kind `k` and field `f`.
(crates/air_r_parser/src/parse.rs:682-712, 717-750, 806-843, 848-874, 929-984, 989-1032) -/
def Loop.before : Loop → Kind → Field → Walk → Option Walk
  | .plain, _, _, w => some w
  | .parameters, k, _, w =>
    match k with
    | .lParen | .rParameter | .comma | .comment => some w
    | .rParen => some w.finish
    | _ => Option.none
  | .parameter _, k, _, w => some (if k = .equal then w.start .rParameterDefault else w)
  | .ifStatement _, k, _, w => some (if k = .elseKw then w.start .rElseClause else w)
  | .braced, k, _, w => some (if k = .rCurly then w.finish else w)
  | .call _, _, _, w => some w
  | .arguments op cl prev, k, _, w =>
    if k = op then some w
    else if k = cl then some (if prev = .comma then w.hole else w).finish
    else match k with
      | .comma => some (if prev = .comma ∨ prev = op then w.hole else w)
      | .rArgument | .comment => some w
      | _ => Option.none
  | .argument seenEqual, k, f, w =>
    some (if isNameKind k ∧ seenEqual = false ∧ f = .name then w.start .rArgumentNameClause else w)

/-- What a loop does after walking a child of kind `k`. (crates/air_r_parser/src/parse.rs:682-712, 848-874,
929-984) -/
def Loop.after : Loop → Kind → Walk → Walk
  | .parameters, k, w => if k = .lParen then w.start .rParameterList else w
  | .braced, k, w => if k = .lCurly then w.start .rExpressionList else w
  | .arguments op _ _, k, w => if k = op then w.start .rArgumentList else w
  | .argument _, k, w => if k = .equal then w.finish else w
  | _, _, w => w

/-- The local variables of a loop after a child of kind `k`. (crates/air_r_parser/src/parse.rs:929-984,
1048-1075) -/
def Loop.next : Loop → Kind → Loop
  | .parameter u, k => .parameter (u || k == .equal)
  | .ifStatement u, k => .ifStatement (u || k == .elseKw)
  | .arguments op cl prev, k => .arguments op cl (if k = .comment then prev else k)
  | .argument s, k => .argument (s || k == .equal)
  | l, _ => l

/-- What happens after a loop: close the optional clause (`parse.rs:749-751`, `parse.rs:843-845`). -/
def Loop.done : Loop → Walk → Walk
  | .parameter true, w => w.finish
  | .ifStatement true, w => w.finish
  | _, w => w

mutual

/-- Walking one node with its subtree: `handle_enter`, the events of the subtree and
`handle_leave` (`parse.rs:219-561`). -/
def walkNode (text : List Byte) : TsNode → Walk → Option Walk
  | .mk k _ s e cs, w =>
    match classify k with
    | .root => do
      let w ← walkKids text .plain cs ((w.start .rRoot).start .rExpressionList)
      let w := w.finish
      let p ← rootStep text e w.pos
      some { w with pos := p }.finish
    | .node => do some (← walkKids text .plain cs (w.start k)).finish
    | .call args => do some (← walkKids text (.call args) cs (w.start k)).finish
    | .parameters => do some (← walkKids text .parameters cs (w.start k)).finish
    | .parameter => do some (← walkKids text (.parameter false) cs (w.start k)).finish
    | .ifStatement => do some (← walkKids text (.ifStatement false) cs (w.start k)).finish
    | .argument => do some (← walkKids text (.argument false) cs (w.start k)).finish
    | .braced => do some (← walkKids text .braced cs (w.start k)).finish
    | .value lit => do
      let w ← walkKids text .plain cs (w.start k)
      some (← w.token text lit s e).finish
    | .atom lit => do some (← (w.start k).token text lit s e).finish
    | .content => w.token text k s e
    | .token => do (← walkKids text .plain cs w).token text k s e
    | .comment => do
      let w ← walkKids text .plain cs w
      let p ← commentStep text s e w.pos
      some { w with pos := p }
    | .unreachable => Option.none

/-- A loop over the children of a node. (crates/air_r_parser/src/parse.rs:219-254, 682-1032) -/
def walkKids (text : List Byte) : Loop → List TsNode → Walk → Option Walk
  | l, [], w => some (l.done w)
  | l, .mk k f s e cs :: rest, w => do
    match l, f with
    | .call args, .arguments =>
      -- `RWalk::handle_arguments` (`parse.rs:910-927`)
      let (op, cl) ← delimiters args
      let w ← walkKids text (.arguments op cl .rBogus) cs (w.start args)
      walkKids text l rest w.finish
    | _, _ =>
      let w ← l.before k f w
      let w ← walkNode text (.mk k f s e cs) w
      walkKids text (l.next k) rest (l.after k w)

end

/-! ## The tree sink -/

/-- A node under construction: its kind and the children so far, and the same for the enclosing
nodes (`TreeBuilder` of `biome_rowan`). (biome_parser, external, biome_rowan;
crates/air_r_parser/src/parse.rs:102-122) -/
structure Sink where
  textPos : Nat
  trivia : List Trivia
  stack : List (Kind × List Tree)
  done : List Tree
  needsEof : Bool

/-- `LosslessTreeSink::eat_trivia` of `biome_parser`: take trivia as long as they are of the wanted
side and start at the current position. Returns the pieces, the new position and the remaining
trivia. (crates/air_r_parser/src/parse.rs:102-122 calls it) -/
def eatTrivia (text : List Byte) (trailing : Bool) : List Trivia → Nat →
    List Piece × Nat × List Trivia
  | [], pos => ([], pos, [])
  | t :: ts, pos =>
    if t.trailing = trailing ∧ t.start = pos then
      let (ps, pos', rest) := eatTrivia text trailing ts (pos + (t.stop - t.start))
      (⟨t.kind, (text.drop t.start).take (t.stop - t.start)⟩ :: ps, pos', rest)
    else ([], pos, t :: ts)

/-- The token built by `LosslessTreeSink::do_token` of `biome_parser`: leading trivia up to the
token, then everything up to `stop` as the token, then trailing trivia.
(crates/air_r_parser/src/parse.rs:102-122 calls it) -/
def buildToken (text : List Byte) (kind : Kind) (stop : Nat) (pos : Nat) (ts : List Trivia) :
    Option (Token × Nat × List Trivia) := do
  let (leading, start, ts) := eatTrivia text false ts pos
  let own ← slice text start stop
  let (trailing, pos, ts) := eatTrivia text true ts stop
  some (⟨kind, leading, own, trailing⟩, pos, ts)

/-- Adding a finished tree to the innermost open node. (biome_rowan, external;
crates/air_r_parser/src/parse.rs:102-122) -/
def Sink.push (s : Sink) (t : Tree) : Sink :=
  match s.stack with
  | [] => { s with done := s.done ++ [t] }
  | (k, cs) :: rest => { s with stack := (k, cs ++ [t]) :: rest }

/-- `LosslessTreeSink::do_token`. (biome_parser, external; crates/air_r_parser/src/parse.rs:102-122) -/
def Sink.token (text : List Byte) (s : Sink) (kind : Kind) (stop : Nat) : Option Sink := do
  let (t, pos, ts) ← buildToken text kind stop s.textPos s.trivia
  let s := { s with textPos := pos, trivia := ts,
                    needsEof := if kind = Kind.eof then false else s.needsEof }
  some (s.push (.token t))

/-- One event of `biome_parser::event::process` with `LosslessTreeSink` as target. The token for
the end of the file is added before the outermost node is finished. (crates/air_r_parser/src/parse.rs:102-122
calls it) -/
def Sink.event (text : List Byte) (s : Sink) : Event → Option Sink
  | .start k => some { s with stack := (k, []) :: s.stack }
  | .token k e => s.token text k e
  | .finish => do
    let s ← if s.stack.length = 1 ∧ s.needsEof then s.token text .eof text.length else some s
    match s.stack with
    | [] => Option.none
    | (k, cs) :: rest => some ({ s with stack := rest }.push (.node k cs))

/-- `build_tree` (`parse.rs:100-121`): process all events; the builder must end with exactly one
finished tree. -/
def buildTree (text : List Byte) (events : List Event) (trivia : List Trivia) : Option Tree := do
  let s ← events.foldlM (Sink.event text) ⟨0, trivia, [], [], true⟩
  match s.stack, s.done with
  | [], [t] => some t
  | _, _ => Option.none

/-- Events of `parse_failure` (`parse.rs:159-197`). -/
def failureEvents (text : List Byte) : List Event :=
  [.start .rRoot, .start .rExpressionList, .start .rBogusExpression, .token .rBogus text.length,
   .finish, .finish, .finish]

/-- `parse` (`parse.rs:94-98`), given the tree of tree-sitter and whether it has an error
(`parse.rs:123-157`): the tree and whether there is a parse error. -/
def parse (text : List Byte) (root : TsNode) (hasError : Bool) : Option (Tree × Bool) :=
  if hasError then do
    some (← buildTree text (failureEvents text) [], true)
  else do
    let w ← walkNode text root Walk.new
    some (← buildTree text w.events w.pos.trivia, false)

end Verif.Parser
