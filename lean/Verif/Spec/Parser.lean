import Verif.Model.Parser

/-!
# What the parser bridge should produce

Independent description of the syntax tree that belongs to a tree-sitter tree: `conv` regroups the
children of each node, `leaves` lists the tokens and comments in source order. `Shaped` describes
the trees that the grammar of tree-sitter-r can produce, `Tiled` how their leaves lie in the text.
-/

namespace Verif.Parser

open Syntax

/-- A syntax tree without trivia; tokens are given by kind and end position. -/
inductive PTree where
  | tok (kind : Kind) (stop : Nat)
  | node (kind : Kind) (children : List PTree)

mutual
/-- The events building a tree. -/
def flat : PTree → List Event
  | .tok k e => [.token k e]
  | .node k cs => .start k :: flats cs ++ [.finish]
/-- The events building a list of trees. -/
def flats : List PTree → List Event
  | [] => []
  | t :: ts => flat t ++ flats ts
end

def PTree.kind : PTree → Kind
  | .tok k _ => k
  | .node k _ => k

/-! ## Regrouping the children of a node -/

/-- A child of a node: its kind and the trees it becomes (none for a comment). -/
structure Item where
  kind : Kind
  trees : List PTree

/-- All trees of a list of items. -/
def Item.all (xs : List Item) : List PTree := (xs.map Item.trees).flatten

/-- Wrap everything between the first and the last item into a list node. -/
def enclosed (k : Kind) (inner : List Item → List PTree) : List Item → List PTree
  | [] => []
  | o :: r => o.trees ++ [.node k (inner r.dropLast)] ++ Item.all r.getLast?.toList

/-- Wrap everything from the first item of kind `k` on into a clause, if there is such an item. -/
def clauseFrom (k clause : Kind) (xs : List Item) : List PTree :=
  Item.all (xs.takeWhile fun x => x.kind != k) ++
    match xs.dropWhile fun x => x.kind != k with
    | [] => []
    | r => [.node clause (Item.all r)]

/-- Wrap everything up to and including the first item of kind `k` into a clause, if there is such
an item. -/
def clauseUpTo (k clause : Kind) (xs : List Item) : List PTree :=
  match xs.dropWhile fun x => x.kind != k with
  | [] => Item.all xs
  | e :: r => .node clause (Item.all (xs.takeWhile fun x => x.kind != k) ++ e.trees) :: Item.all r

/-- Split a list of items at the commas: the first group, and each comma with the group after
it. -/
def groups : List Item → List Item × List (Item × List Item)
  | [] => ([], [])
  | x :: xs =>
    if x.kind = .comma then ([], (x, (groups xs).1) :: (groups xs).2)
    else (x :: (groups xs).1, (groups xs).2)

/-- The argument of a group of items between two commas: the explicit one, or a hole. -/
def argOf (g : List Item) : List PTree :=
  if g.any (·.kind == .rArgument) then Item.all g else [.node .rArgument []]

/-- The children of an argument list, given the items between the delimiters: nothing if there is
neither an argument nor a comma, otherwise one argument per group, separated by the commas. -/
def argList (xs : List Item) : List PTree :=
  if xs.all (·.kind == .comment) then []
  else argOf (groups xs).1 ++ ((groups xs).2.map fun (c, g) => c.trees ++ argOf g).flatten

mutual
/-- The tree a tree-sitter node becomes (none for a comment). -/
def conv : TsNode → List PTree
  | .mk k _ _ e cs =>
    match classify k with
    | .root => [.node k [.node .rExpressionList (Item.all (items Option.none cs))]]
    | .node => [.node k (Item.all (items Option.none cs))]
    | .call args => [.node k (Item.all (items (some args) cs))]
    | .parameters => [.node k (enclosed .rParameterList Item.all (items Option.none cs))]
    | .parameter => [.node k (clauseFrom .equal .rParameterDefault (items Option.none cs))]
    | .ifStatement => [.node k (clauseFrom .elseKw .rElseClause (items Option.none cs))]
    | .argument => [.node k (clauseUpTo .equal .rArgumentNameClause (items Option.none cs))]
    | .braced => [.node k (enclosed .rExpressionList Item.all (items Option.none cs))]
    | .value lit | .atom lit => [.node k [.tok lit e]]
    | .content | .token => [.tok k e]
    | .comment | .unreachable => []
/-- The children of a node as items; `call` is the kind of argument node if the parent is a call. -/
def items (call : Option Kind) : List TsNode → List Item
  | [] => []
  | .mk k f s e cs :: rest =>
    (match call, f with
      | some args, .arguments =>
        ⟨k, [.node args (enclosed .rArgumentList argList (items Option.none cs))]⟩
      | _, _ => ⟨k, conv (.mk k f s e cs)⟩) :: items call rest
end

/-! ## Leaves -/

/-- A token or a comment of the source. -/
structure Leaf where
  isComment : Bool
  kind : Kind
  start : Nat
  stop : Nat
  deriving DecidableEq

mutual
/-- Tokens and comments of a node in source order. -/
def leaves : TsNode → List Leaf
  | .mk k _ s e cs =>
    match classify k with
    | .value lit | .atom lit => [⟨false, lit, s, e⟩]
    | .content | .token => [⟨false, k, s, e⟩]
    | .comment => [⟨true, k, s, e⟩]
    | _ => leavesList cs
/-- Tokens and comments of a list of nodes. -/
def leavesList : List TsNode → List Leaf
  | [] => []
  | c :: cs => leaves c ++ leavesList cs
end

/-! ## The trees of the grammar -/

/-- The first and only the first node has kind `op`, the last and only the last has kind `cl`, all
others satisfy `inner`. -/
def Delimited (op cl : Kind) (inner : Kind → Prop) (cs : List TsNode) : Prop :=
  ∃ o mid c, cs = o :: mid ++ [c] ∧ o.kind = op ∧ c.kind = cl ∧
    ∀ n ∈ mid, n.kind ≠ op ∧ n.kind ≠ cl ∧ inner n.kind

/-- At most one node has kind `k`. -/
def AtMostOne (k : Kind) (cs : List TsNode) : Prop :=
  (∀ n ∈ cs, n.kind ≠ k) ∨
    ∃ a c b, cs = a ++ c :: b ∧ c.kind = k ∧ (∀ n ∈ a, n.kind ≠ k) ∧ ∀ n ∈ b, n.kind ≠ k

/-- Kinds a name of an argument has in the grammar: `name = value`, `"name" = value`,
`... = value`, `..1 = value`, `NULL = value`. -/
def nameKinds : List Kind := [.rIdentifier, .rStringValue, .rDots, .rDotDotI, .rNullExpression]

/-- Kinds of argument nodes with their delimiters: `(`, `[` and `[[`. -/
def brackets : List (Kind × Kind × Kind) :=
  [(.rCallArguments, .lParen, .rParen), (.rSubsetArguments, .lBrack, .rBrack),
   (.rSubset2Arguments, .lBrack2, .rBrack2)]

/-- Children of an argument: a value only, or a name, `=` and possibly a value. -/
def ArgumentShape (cs : List TsNode) : Prop :=
  (∀ n ∈ cs, n.kind ≠ .equal ∧ n.field ≠ .name) ∨
    ∃ n a q b, cs = n :: a ++ q :: b ∧ n.kind ∈ nameKinds ∧ n.field = .name ∧ q.kind = .equal ∧
      (∀ m ∈ a, m.kind ≠ .equal ∧ m.field ≠ .name) ∧ ∀ m ∈ b, m.kind ≠ .equal

/-- Children of an arguments node: arguments, commas and comments between the delimiters, with a
comma between any two arguments. -/
def ArgumentsShape (args : Kind) (cs : List TsNode) : Prop :=
  ∃ op cl, (args, op, cl) ∈ brackets ∧
    Delimited op cl (fun k => k = .rArgument ∨ k = .comma ∨ k = .comment) cs ∧
    ∀ a x b y c, cs = a ++ x :: b ++ y :: c → x.kind = .rArgument → y.kind = .rArgument →
      ∃ z ∈ b, z.kind = .comma

mutual
/-- Nodes below the root that tree-sitter-r can produce. -/
def Shaped : TsNode → Prop
  | .mk k _ _ _ cs =>
    match classify k with
    | .root | .unreachable => False
    | .node => ShapedList Option.none cs
    | .call args => ShapedList (some args) cs
    | .parameters => ShapedList Option.none cs ∧
        Delimited .lParen .rParen (fun k => k = .rParameter ∨ k = .comma ∨ k = .comment) cs
    | .parameter => ShapedList Option.none cs ∧ AtMostOne .equal cs
    | .ifStatement => ShapedList Option.none cs ∧ AtMostOne .elseKw cs
    | .argument => ShapedList Option.none cs ∧ ArgumentShape cs
    | .braced => ShapedList Option.none cs ∧ Delimited .lCurly .rCurly (fun _ => True) cs
    | .value _ | .token | .comment => cs = []
    | .atom _ | .content => True
/-- Lists of such nodes; below a call the child in the field `arguments` is the list of
arguments. -/
def ShapedList (call : Option Kind) : List TsNode → Prop
  | [] => True
  | .mk k f s e cs :: rest =>
    (match call, f with
      | some args, .arguments =>
        classify k = .unreachable ∧ ShapedList Option.none cs ∧ ArgumentsShape args cs
      | _, _ => Shaped (.mk k f s e cs)) ∧ ShapedList call rest
end

/-- Whole trees that tree-sitter-r can produce for a text without errors. -/
def ShapedRoot : TsNode → Prop
  | .mk k _ _ _ cs => k = .rRoot ∧ ShapedList Option.none cs

/-! ## Leaves in the text -/

/-- Bytes that may occur between tokens: tab, line feed, vertical tab, form feed, carriage return,
space and semicolon. -/
def isGapByte (b : Byte) : Bool := [9, 10, 11, 12, 13, 32, 59].contains b

/-- Text between two positions. -/
def between (text : List Byte) (a b : Nat) : List Byte := (text.drop a).take (b - a)

/-- A line ends here: with a line feed, or with a carriage return and a line feed. -/
def LineEnd (bs : List Byte) : Prop := ∃ r, bs = 10 :: r ∨ bs = 13 :: 10 :: r

/-- The leaves lie in the text from position `pos` on one after the other, up to the end `stop` of
the root; tokens and comments are not empty, what lies between them is blank, and a comment extends
exactly to the end of its line. `cmt` says that a comment ends at `pos`. -/
def Tiled (text : List Byte) (stop : Nat) : Nat → Bool → List Leaf → Prop
  | pos, cmt, [] => pos ≤ stop ∧ stop ≤ text.length ∧ (between text pos stop).all isGapByte ∧
      (cmt → between text pos stop ≠ [] → LineEnd (between text pos stop))
  | pos, cmt, l :: ls => pos ≤ l.start ∧ l.start < l.stop ∧ l.stop ≤ text.length ∧
      (between text pos l.start).all isGapByte ∧
      (cmt → LineEnd (between text pos l.start)) ∧
      (l.isComment → 10 ∉ between text l.start l.stop) ∧
      Tiled text stop l.stop l.isComment ls

/-- Nothing lies between the quotes and the content of a string. -/
def Joined : List Leaf → Prop
  | [] => True
  | l :: ls =>
    (l.isComment = false → l.kind = .stringOpen ∨ l.kind = .stringContent →
      ∃ l' r, ls = l' :: r ∧ l'.isComment = false ∧ l.stop = l'.start) ∧ Joined ls

/-! ## Line ends -/

/-- Carriage returns occur in front of line feeds only. -/
def Lined (bs : List Byte) : Prop := ∀ a b, bs = a ++ 13 :: b → ∃ c, b = 10 :: c

/-- The position is not between a carriage return and a line feed. -/
def Apart (text : List Byte) (i : Nat) : Prop := ∀ a b, text = a ++ 13 :: 10 :: b → a.length + 1 ≠ i

/-- A carriage return with its line feed, or no carriage return. -/
def Crisp (bs : List Byte) : Prop := 13 ∉ bs ∨ bs = [13, 10]

/-! ## Well formed trivia -/

/-- Comments among pieces of trivia. -/
def pieceComments (ps : List Piece) : List (List Byte) :=
  (ps.filter fun p => p.kind == .comment).map Piece.text

/-- Comments attached to a token, in source order. -/
def tokenComments (t : Token) : List (List Byte) := pieceComments (t.leading ++ t.trailing)

/-- A newline piece is a single line end, a whitespace piece is blank without a line feed. -/
def PieceOk (p : Piece) : Prop :=
  match p.kind with
  | .newline => p.text ∈ [[10], [13], [13, 10]]
  | .whitespace => ∀ b ∈ p.text, isGapByte b ∧ b ≠ 10
  | .comment => True

/-- Every comment is preceded by a newline piece with a line feed. -/
def CommentsOnOwnLine (ps : List Piece) : Prop :=
  ∀ A c B, ps = A ++ c :: B → c.kind = .comment → ∃ n ∈ A, n.kind = .newline ∧ 10 ∈ n.text

/-- The trivia of a token: trailing trivia stay on the line of the token; comments among the leading
trivia are on a line of their own unless nothing precedes the token in the file. -/
structure TriviaOk (isFirst : Bool) (t : Token) : Prop where
  pieces : ∀ p ∈ t.leading ++ t.trailing, PieceOk p
  trailing : ∀ p ∈ t.trailing, p.kind ≠ .newline ∧ 10 ∉ p.text
  leading : isFirst = false → CommentsOnOwnLine t.leading

/-- After a comment comes the end of the line or nothing; `r`: what comes after the pieces. -/
def CommentsEnd : List Piece → List Byte → Prop
  | [], _ => True
  | p :: ps, r => (p.kind = .comment → piecesText ps ++ r ≠ [] → LineEnd (piecesText ps ++ r)) ∧ CommentsEnd ps r

/-- The same for all trivia of the tokens of a file. -/
def CommentsEndAll : List Token → Prop
  | [] => True
  | t :: ts => CommentsEnd t.leading (t.text ++ piecesText t.trailing ++ (ts.map Token.full).flatten) ∧
    CommentsEnd t.trailing (ts.map Token.full).flatten ∧ CommentsEndAll ts

/-- The parts of a string are adjacent and the last token is not among them. -/
def Unbroken : List Token → Prop
  | [] => True
  | t :: ts => (t.kind = .stringOpen ∨ t.kind = .stringContent →
      t.trailing = [] ∧ ∃ u r, ts = u :: r ∧ u.leading = [] ∧ r ≠ []) ∧ Unbroken ts

end Verif.Parser
