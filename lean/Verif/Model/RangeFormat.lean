import Verif.Model.Syntax

/-!
# Range formatting

Models `crates/lsp/src/handlers_format.rs:106-283`: how a selection is widened to whole expressions
and which range of the text is replaced. Node identity is the path from the root. Ranges are byte
ranges; the position of a node is the length of everything before it, as in `biome_rowan`.
`format_sub_tree` is a parameter.
-/

namespace Verif.RangeFormat

open Syntax

/-- Length of the text of a tree with all trivia (`text_range_with_trivia().len()`). (biome_rowan, external;
crates/lsp/src/handlers_format.rs:169-199) -/
def len (t : Tree) : Nat := t.full.length

/-- Length of a list of trees. (auxiliary, crates/lsp/src/handlers_format.rs:249-281) -/
def lens (ts : List Tree) : Nat := ((Tree.tokensList ts).map Token.full).flatten.length

/-- Length of the leading trivia of the first token of a tree. (biome_rowan, external;
crates/lsp/src/handlers_format.rs:169-199) -/
def lead (t : Tree) : Nat := (t.tokens.head?.map fun k => (piecesText k.leading).length).getD 0

/-- Length of the trailing trivia of the last token of a tree. (biome_rowan, external;
crates/lsp/src/handlers_format.rs:169-199) -/
def trail (t : Tree) : Nat := (t.tokens.getLast?.map fun k => (piecesText k.trailing).length).getD 0

/-- `text_range_with_trivia().contains(offset)` for a tree at `start`.
(crates/lsp/src/handlers_format.rs:249-281) -/
def inFull (offset start : Nat) (t : Tree) : Bool :=
  decide (start ≤ offset) && decide (offset < start + len t)

/-- `text_trimmed_range().contains_inclusive(offset)` for a tree at `start`.
(crates/lsp/src/handlers_format.rs:249-281) -/
def inTrimmed (offset start : Nat) (t : Tree) : Bool :=
  decide (start + lead t ≤ offset) && decide (offset ≤ start + len t - trail t)

/-- The path from the root to a node: indices of children. (stands for the identity of a node,
crates/lsp/src/handlers_format.rs:207-245) -/
abbrev Path := List Nat

mutual
/-- The loop of `find_expression_lists` (handlers_format.rs:247-281) for the child with index `i` at
position `start` of a node. `list` says that the parent is an expression list. The result has paths
relative to the parent: the parent is pushed for every contained child if it is an expression list; a
child that does not contain the offset is skipped with its subtree. Tokens are not visited. -/
def findChild (contained : Nat → Tree → Bool) (list : Bool) (i start : Nat) : Tree → List Path
  | .token _ => []
  | .node k cs =>
    if contained start (.node k cs) then
      (if list then [[]] else []) ++
        (findKids contained (k == .rExpressionList) 0 start cs).map (i :: ·)
    else []
/-- The same for the children of a node from the one with index `i` at position `start` on.
(crates/lsp/src/handlers_format.rs:249-281) -/
def findKids (contained : Nat → Tree → Bool) (list : Bool) (i start : Nat) : List Tree → List Path
  | [] => []
  | t :: ts => findChild contained list i start t ++ findKids contained list (i + 1) (start + len t) ts
end

/-- `find_expression_lists` (handlers_format.rs:247-281). Nothing is tested for the root, as it has
no parent. -/
def findLists (contained : Nat → Tree → Bool) : Tree → List Path
  | .token _ => []
  | .node k cs => findKids contained (k == .rExpressionList) 0 0 cs

/-- The common list (handlers_format.rs:208-221). -/
def commonList (starts ends : List Path) : Option Path :=
  (((starts.zip ends).takeWhile fun p => p.1 == p.2).map Prod.fst).getLast?

/-- The children of a node with their positions. (crates/lsp/src/handlers_format.rs:223-245) -/
def located (start : Nat) : List Tree → List (Nat × Tree)
  | [] => []
  | t :: ts => (start, t) :: located (start + len t) ts

/-- The node at a path, with its position. (crates/lsp/src/handlers_format.rs:207-245) -/
def nodeAt (start : Nat) : Tree → Path → Option (Nat × Tree)
  | t, [] => some (start, t)
  | .token _, _ :: _ => none
  | .node _ cs, i :: p =>
    match (located start cs)[i]? with
    | none => none
    | some (s, c) => nodeAt s c p

/-- `find_deepest_enclosing_logical_lines` (handlers_format.rs:203-245): the chosen expressions with
their positions. -/
def logicalLines (root : Tree) (start stop : Nat) : List (Nat × Tree) :=
  match commonList (findLists (inFull start) root) (findLists (inTrimmed stop) root) with
  | none => []
  | some p =>
    match nodeAt 0 root p with
    | some (s, .node .rExpressionList cs) =>
      ((located s cs).dropWhile fun (s, t) => !inFull start s t).takeWhile fun (s, t) =>
        decide (s + lead t ≤ stop)
    | _ => []

/-- Trivia that is not a comment. (crates/lsp/src/handlers_format.rs:169-199) -/
def Piece.isBlank (p : Piece) : Bool := p.kind != .comment

/-- Length of the blank trivia before the first comment or token of a tree.
(crates/lsp/src/handlers_format.rs:169-199) -/
def blankLead (t : Tree) : Nat :=
  (t.tokens.head?.map fun k => (piecesText (k.leading.takeWhile Piece.isBlank)).length).getD 0

/-- Length of the blank trivia after the last comment or token of a tree.
(crates/lsp/src/handlers_format.rs:169-199) -/
def blankTrail (t : Tree) : Nat :=
  (t.tokens.getLast?.map fun k =>
    (piecesText (k.trailing.reverse.takeWhile Piece.isBlank)).length).getD 0

/-- `text_non_whitespace_range` (handlers_format.rs:168-199): the first piece of the leading trivia
that is not blank starts after the blank ones, and if there is none the token starts there. -/
def nonBlankRange (start : Nat) (t : Tree) : Nat × Nat :=
  (start + blankLead t, start + len t - blankTrail t)

/-- `TextRange::cover`. (biome_text_size, external; crates/lsp/src/handlers_format.rs:114-120) -/
def cover (a b : Nat × Nat) : Nat × Nat := (min a.1 b.1, max a.2 b.2)

/-- The range to replace (handlers_format.rs:114-120). -/
def formatRange : List (Nat × Tree) → Option (Nat × Nat)
  | [] => none
  | (s, t) :: ts => some (ts.foldl (fun acc p => cover acc (nonBlankRange p.1 p.2)) (nonBlankRange s t))

/-- Variants of `AnyRExpression` (crates/air_r_syntax/src/generated/nodes.rs), with `AnyRValue`.
(crates/air_r_syntax/src/generated/nodes.rs:1676-1712, 1929-1936) -/
def isExpression : Kind → Bool
  | .rBinaryExpression | .rBogusExpression | .rBracedExpressions | .rBreakExpression | .rCall
  | .rDotDotI | .rDots | .rExtractExpression | .rFalseExpression | .rForStatement
  | .rFunctionDefinition | .rIdentifier | .rIfStatement | .rInfExpression | .rNaExpression
  | .rNamespaceExpression | .rNanExpression | .rNextExpression | .rNullExpression
  | .rParenthesizedExpression | .rRepeatStatement | .rSubset | .rSubset2 | .rTrueExpression
  | .rUnaryExpression | .rWhileStatement | .rBogusValue | .rComplexValue | .rDoubleValue
  | .rIntegerValue | .rStringValue => true
  | _ => false

/-- The artificial root that is formatted (handlers_format.rs:129-140). -/
def rootOf (ts : List Tree) : Tree :=
  .node .rRoot [.node .rExpressionList ts, .token ⟨.eof, [], [], []⟩]

/-- handlers_format.rs:106-162: the range to replace and its new text. `format` gives the text
printed for the artificial root (as characters or bytes), `some none` if nothing was printed, `none` for an
error. -/
def formatSelection (format : Tree → Option (Option (List α))) (root : Tree) (start stop : Nat) :
    Option (Option ((Nat × Nat) × List α)) :=
  let lines := logicalLines root start stop
  match formatRange lines with
  | none => some none
  | some range =>
    if lines.all fun (_, t) => isExpression t.kind then
      match format (rootOf (lines.map Prod.snd)) with
      | none => none
      | some none => some none
      | some (some text) => some (some (range, text.dropLast))
    else some none

end Verif.RangeFormat
