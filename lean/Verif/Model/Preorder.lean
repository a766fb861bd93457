import Verif.Model.Parser

/-!
# The preorder iterator

Models `crates/air_r_parser/src/treesitter.rs:4-85`. `tree_sitter::TreeCursor` is modelled after its
documentation: it walks the tree below the node it was created with and cannot leave it.
-/

namespace Verif.Parser

/-- `WalkEvent<Node>` (treesitter.rs:6-11). -/
inductive WalkEvent where
  | enter (n : TsNode)
  | leave (n : TsNode)

/-- The node of an event. (crates/air_r_parser/src/treesitter.rs:6-11) -/
def WalkEvent.node : WalkEvent → TsNode
  | .enter n | .leave n => n

/-- `tree_sitter::TreeCursor`: the current node, the siblings after it, and the same for its
ancestors up to the node the cursor was created with. (external; crates/air_r_parser/src/treesitter.rs:23-26) -/
structure Cursor where
  node : TsNode
  right : List TsNode
  up : List (TsNode × List TsNode)

/-- `Node::walk`. (external; crates/air_r_parser/src/treesitter.rs:29-33) -/
def Cursor.new (n : TsNode) : Cursor := ⟨n, [], []⟩

/-- `TreeCursor::goto_first_child`; `none`: `false` is returned and the cursor stays. (external;
crates/air_r_parser/src/treesitter.rs:69-84) -/
def Cursor.firstChild (c : Cursor) : Option Cursor :=
  match c.node.children with
  | [] => none
  | n :: ns => some ⟨n, ns, (c.node, c.right) :: c.up⟩

/-- `TreeCursor::goto_next_sibling`. (external; crates/air_r_parser/src/treesitter.rs:51-84) -/
def Cursor.nextSibling (c : Cursor) : Option Cursor :=
  match c.right with
  | [] => none
  | n :: ns => some ⟨n, ns, c.up⟩

/-- `TreeCursor::goto_parent`. (external; crates/air_r_parser/src/treesitter.rs:51-84) -/
def Cursor.parent (c : Cursor) : Option Cursor :=
  match c.up with
  | [] => none
  | (n, ns) :: up => some ⟨n, ns, up⟩

/-- `Preorder` (treesitter.rs:23-26). -/
structure Preorder where
  cursor : Cursor
  next : Option WalkEvent

/-- `Preorder::new` (treesitter.rs:29-33). -/
def Preorder.new (n : TsNode) : Preorder := ⟨.new n, some (.enter n)⟩

/-- `Preorder::peek` (treesitter.rs:38-40). -/
def Preorder.peek (p : Preorder) : Option WalkEvent := p.next

/-- `Preorder::peek_field_name` (treesitter.rs:47-49). -/
def Preorder.peekFieldName (p : Preorder) : Field := p.cursor.node.field

/-- `Preorder::skip_subtree` (treesitter.rs:51-63). -/
def Preorder.skipSubtree (p : Preorder) : Preorder :=
  match p.next with
  | none => p
  | some (.enter _) =>
    match p.cursor.parent with
    | some c => ⟨c, some (.leave c.node)⟩
    | none => ⟨p.cursor, none⟩
  | some (.leave n) => ⟨p.cursor, some (.leave n)⟩

/-- `Iterator::next` (treesitter.rs:69-84): the returned event and the iterator after it. -/
def Preorder.step (p : Preorder) : Option WalkEvent × Preorder :=
  (p.next,
    match p.next with
    | none => p
    | some (.enter n) =>
      match p.cursor.firstChild with
      | some c => ⟨c, some (.enter c.node)⟩
      | none => ⟨p.cursor, some (.leave n)⟩
    | some (.leave _) =>
      match p.cursor.nextSibling with
      | some c => ⟨c, some (.enter c.node)⟩
      | none =>
        match p.cursor.parent with
        | some c => ⟨c, some (.leave c.node)⟩
        | none => ⟨p.cursor, none⟩)

end Verif.Parser
