import Verif.Model.Ungrammar

/-!
# The generator of the syntax tree

xtask/codegen/src/ast.rs, and what the code that generate_syntax_factory.rs and generate_nodes.rs write does. The input is the
grammar with names instead of numbers (`Rule.resolve`). Kinds of the tree are the names of nodes and tokens: that the spellings
of kinds (`Case::Constant`, `token_kind_to_code`, `clean_token_name`) are different for different names is left out, as are
the spellings of methods, sorting, and printing of the code. Nodes with parts in any order (`&&`, `||`), of which r.ungram has
none, are classified, but their factory is not modelled. Panics are `none`.
-/

namespace Verif.Ungrammar

/-- A grammar, its nodes in order (crates/biome_ungrammar/src/lib.rs:36-70). -/
abbrev Gram := List (Name × Rule Name)

/-- `SYNTAX_ELEMENT_TYPE` (xtask/codegen/src/ast.rs:25). -/
def syntaxElement : Name := "SyntaxElement".toList

/-- `Field` (kind_src.rs:86-100); the kinds of a token are `TokenKind` (kind_src.rs:80-84). -/
inductive Field
  | token (name : Name) (kinds : List Name) (optional unordered : Bool)
  | node (name : Name) (ty : Name) (optional unordered : Bool)
  deriving DecidableEq, Repr

/-- `Field::is_optional` (kind_src.rs:220-225). -/
def Field.optional : Field → Bool
  | .token _ _ o _ => o
  | .node _ _ o _ => o

/-- `Field::is_unordered` (kind_src.rs:227-232). -/
def Field.unordered : Field → Bool
  | .token _ _ _ u => u
  | .node _ _ _ u => u

/-- A slice of rules (ast.rs:189, 346). -/
def Rules.toList {α : Type} : Rules α → List (Rule α)
  | .nil => []
  | .cons r rs => r :: rs.toList

/-- The tokens of an alternative of tokens; `none` if there is something else (ast.rs:411-417). -/
def allTokens : List (Rule Name) → Option (List Name)
  | [] => some []
  | .token t :: rs => (allTokens rs).map (t :: ·)
  | _ :: _ => none

/-- The kinds and optionality of the field of `handle_tokens_in_unions`, if it is one (ast.rs:393-427). -/
def tokenUnion (optional : Bool) : Rule Name → Option (List Name × Bool)
  | .opt (.alt rs) => (allTokens rs.toList).map fun ts => (ts, true)
  | .alt rs => (allTokens rs.toList).map fun ts => (ts, optional)
  | _ => none

mutual
/-- `handle_rule` (ast.rs:249-335). -/
def handleRule (label : Option Name) (optional unordered : Bool) : Rule Name → Option (List Field)
  | .labeled l r =>
    match tokenUnion optional r with
    | some (kinds, o) => some [.token l kinds o unordered]
    | none => handleRule (some l) optional unordered r
  | .node n => some [.node (label.getD n) n optional unordered]
  | .token t => if t = [] then some [] else some [.token (label.getD t) [t] optional unordered]
  | .rep _ => none
  | .opt r => handleRule label true false r
  | .alt rs => if optional then none else handleRules label false false rs
  | .seq rs => handleRules label optional false rs
  | .unorderedAll rs => handleRules label optional true rs
  | .unorderedSome rs => handleRules label true true rs
/-- The loops of `handle_rule` (ast.rs:307-333). -/
def handleRules (label : Option Name) (optional unordered : Bool) : Rules Name → Option (List Field)
  | .nil => some []
  | .cons r rs =>
    match handleRule label optional unordered r, handleRules label optional unordered rs with
    | some fs, some gs => some (fs ++ gs)
    | _, _ => none
end

/-- The variants of a union; `none` if there is something else (ast.rs:188-198). -/
def variants : List (Rule Name) → Option (List Name)
  | [] => some []
  | .node n :: rs => (variants rs).map (n :: ·)
  | .token t :: rs => if t = [';'] then variants rs else none
  | _ :: _ => none

/-- `NodeRuleClassification` together with what `make_ast` makes of it (ast.rs:101-183, kind_src.rs:21-110). -/
inductive Def
  | union (variants : List Name)
  | node (fields : List Field) (dynamic : Bool)
  | bogus
  | list (element : Name) (separator : Option (Name × Bool))
  deriving DecidableEq, Repr

/-- The end of `handle_comma_list` for a repetition of `comma` and `m` after `n` (ast.rs:356-390); `matching`: a trailing
separator, if there is one, is the same. The outer `none` is the panic, the inner one that this is not a list. -/
def commaRest (n : Name) (comma : Rule Name) (m : Name) (matching trailing : Bool) : Option (Option (Name × Name × Bool)) :=
  if m ≠ n ∨ matching = false then some none
  else
    match comma with
    | .token s => some (some (n, s, trailing))
    | _ => none

mutual
/-- `Rule: PartialEq`, derived (crates/biome_ungrammar/src/lib.rs:93). -/
def Rule.same : Rule Name → Rule Name → Bool
  | .labeled l r, .labeled l' r' => l == l' && r.same r'
  | .node n, .node n' => n == n'
  | .token t, .token t' => t == t'
  | .seq rs, .seq rs' => rs.same rs'
  | .alt rs, .alt rs' => rs.same rs'
  | .unorderedSome rs, .unorderedSome rs' => rs.same rs'
  | .unorderedAll rs, .unorderedAll rs' => rs.same rs'
  | .opt r, .opt r' => r.same r'
  | .rep r, .rep r' => r.same r'
  | _, _ => false
/-- The same for vectors (crates/biome_ungrammar/src/lib.rs:93). -/
def Rules.same : Rules Name → Rules Name → Bool
  | .nil, .nil => true
  | .cons r rs, .cons r' rs' => r.same r' && rs.same rs'
  | _, _ => false
end

/-- `handle_comma_list` (ast.rs:337-390): element, separator, and whether it may be at the end. -/
def commaList : List (Rule Name) → Option (Option (Name × Name × Bool))
  | [.node n, .rep (.seq (.cons comma (.cons (.node m) .nil))), .opt t] => commaRest n comma m (t.same comma) true
  | [.node n, .rep (.seq (.cons comma (.cons (.node m) .nil)))] => commaRest n comma m true false
  | _ => some none

/-- A node with fields (ast.rs:119-139). -/
def nodeDef (unordered : Bool) (r : Rule Name) : Option Def :=
  (handleRule none false unordered r).map fun fs => .node fs (unordered || fs.any Field.unordered)

/-- `classify_node_rule`, and the body of the loop of `make_ast` (ast.rs:112-153, 185-235). -/
def makeDef (r : Rule Name) : Option Def :=
  match r with
  | .alt rs =>
    match variants rs.toList with
    | some vs => some (.union vs)
    | none => nodeDef false r
  | .rep (.node n) => if n = syntaxElement then some .bogus else some (.list n none)
  | .rep _ => none
  | .seq rs =>
    match commaList rs.toList with
    | some (some (n, s, trailing)) => some (.list n (some (s, trailing)))
    | some none => nodeDef false r
    | none => none
  | .unorderedAll _ => nodeDef true r
  | .unorderedSome _ => nodeDef true r
  | _ => nodeDef false r

/-- `make_ast` (ast.rs:101-156). -/
def makeAst : Gram → Option (List (Name × Def))
  | [] => some []
  | (n, r) :: g =>
    if n = syntaxElement then makeAst g
    else
      match makeDef r, makeAst g with
      | some d, some ds => some ((n, d) :: ds)
      | _, _ => none

/-! ## What the generated code does -/

/-- The kind of a child: a node or a token. (crates/air_r_syntax/src/generated/kind.rs) -/
inductive Elem
  | node (n : Name) | token (t : Name)
  deriving DecidableEq, Repr

/-- `can_cast` of a type as it is generated (generate_nodes.rs:284-286, 434-437, 488-500, 670-672, 735-737): for unions by way
of the variants. `depth` is how deep unions may be nested; the code has no such bound. -/
def canCast (ast : List (Name × Def)) : Nat → Name → Elem → Bool
  | 0, _, _ => false
  | depth + 1, n, k =>
    match ast.lookup n with
    | some (.union vs) => vs.any fun v => canCast ast depth v k
    | some _ => k = .node n
    | none => false

/-- `get_field_predicate` (generate_nodes.rs:1096-1120). -/
def Field.test (ast : List (Name × Def)) (depth : Nat) : Field → Elem → Bool
  | .node _ ty _ _, k => canCast ast depth ty k
  | .token _ kinds _ _, k => kinds.any fun t => k = .token t

/-- The arm of a node in `make_syntax` (generate_syntax_factory.rs:88-126): every slot takes the next child if it fits. -/
def fill : List (Elem → Bool) → List Elem → Option (List (Option Elem))
  | [], [] => some []
  | [], _ :: _ => none
  | _ :: ps, [] => (fill ps []).map (none :: ·)
  | p :: ps, c :: cs => if p c then (fill ps cs).map (some c :: ·) else (fill ps (c :: cs)).map (none :: ·)

/-- `make_separated_list_syntax` (biome_rowan, external; generate_syntax_factory.rs:132-137), as documented. `due`: an element
is due. -/
def separated (fits : Elem → Bool) (sep : Name) (trailing : Bool) : Bool → Bool → List Elem → Option (List (Option Elem))
  | due, first, [] => some (if due && !first && !trailing then [none] else [])
  | true, _, c :: cs =>
    if fits c then (separated fits sep trailing false false cs).map (some c :: ·)
    else if c = .token sep then (separated fits sep trailing true false cs).map fun r => none :: some c :: r
    else none
  | false, _, c :: cs =>
    if c = .token sep then (separated fits sep trailing true false cs).map (some c :: ·)
    else if fits c then (separated fits sep trailing false false cs).map fun r => none :: some c :: r
    else none

/-- `make_syntax` of the generated factory (generate_syntax_factory.rs:9-176): the slots of a node of kind `n`, or `none` if it
is bogus, or not a node. Nodes with fields in any order are left out. -/
def makeSyntax (ast : List (Name × Def)) (depth : Nat) (n : Name) (cs : List Elem) : Option (List (Option Elem)) :=
  match ast.lookup n with
  | some (.node fields false) => fill (fields.map (Field.test ast depth)) cs
  | some .bogus => some (cs.map some)
  | some (.list e none) => if cs.all (canCast ast depth e) then some (cs.map some) else none
  | some (.list e (some (s, trailing))) => separated (canCast ast depth e) s trailing true true cs
  | _ => none

end Verif.Ungrammar
