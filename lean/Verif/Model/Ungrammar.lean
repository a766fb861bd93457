/-!
# Grammar files

The lexer and parser of crates/biome_ungrammar, which read xtask/codegen/r.ungram for the generators of the syntax tree.
Errors are `none`: their messages and locations are not modelled.
-/

namespace Verif.Ungrammar

/-- Names of nodes and tokens (crates/biome_ungrammar/src/lib.rs:72-90). -/
abbrev Name := List Char

/-- `TokenKind` (crates/biome_ungrammar/src/lexer.rs:4-17). -/
inductive Kind
  | node (s : Name) | token (s : Name) | eq | star | pipe | qmark | colon | lparen | rparen | pipe2 | amp2
  deriving DecidableEq, Repr

/-! ## Lexer -/

/-- `is_whitespace` (lexer.rs:160-162). -/
def isWs (c : Char) : Bool := c == ' ' || c == '\t' || c == '\n'

/-- `is_ident_char` (lexer.rs:163-165). -/
def isIdent (c : Char) : Bool :=
  ('a' ≤ c && c ≤ 'z') || ('A' ≤ c && c ≤ 'Z') || c == '_' || ('0' ≤ c && c ≤ '9')

/-- `is_escapable` (lexer.rs:157-159). -/
def isEscapable (c : Char) : Bool := c == '\\' || c == '\''

/-- What is behind the next line feed (lexer.rs:91-92). -/
def afterLine : List Char → List Char
  | [] => []
  | c :: cs => if c = '\n' then cs else afterLine cs

/-- `skip_comment` (lexer.rs:89-94). -/
def skipComment (cs : List Char) : List Char := if ['/', '/'].isPrefixOf cs then afterLine cs else cs

/-- The loop of `advance` inside of quotes (lexer.rs:121-131). -/
def literal (buf : Name) : List Char → Option (Name × List Char)
  | [] => none
  | c :: cs =>
    if c = '\\' then
      match cs with
      | d :: ds => if isEscapable d then literal (buf ++ [d]) ds else none
      | [] => none
    else if c = '\'' then some (buf, cs)
    else literal (buf ++ [c]) cs

/-- `advance` (lexer.rs:96-155). It is called with a non-empty text only. -/
def advance : List Char → Option (Kind × List Char)
  | [] => none
  | c :: cs =>
    if c = '=' then some (.eq, cs)
    else if c = '*' then some (.star, cs)
    else if c = '?' then some (.qmark, cs)
    else if c = '(' then some (.lparen, cs)
    else if c = ')' then some (.rparen, cs)
    else if c = '|' then if cs.head? = some '|' then some (.pipe2, cs.drop 1) else some (.pipe, cs)
    else if c = '&' then if cs.head? = some '&' then some (.amp2, cs.drop 1) else none
    else if c = ':' then some (.colon, cs)
    else if c = '\'' then (literal [] cs).map fun (buf, r) => (.token buf, r)
    else if isIdent c then some (.node (c :: cs.takeWhile isIdent), cs.dropWhile isIdent)
    else none

/-- The loop of `tokenize` (lexer.rs:63-84), without locations; `fuel`: at least one more than there are characters. -/
def tokenizeAux : Nat → List Char → Option (List Kind)
  | 0, _ => none
  | fuel + 1, input =>
    if input = [] then some []
    else
      let skipped := skipComment (input.dropWhile isWs)
      if skipped.length = input.length then
        match advance input with
        | some (k, rest) => (tokenizeAux fuel rest).map (k :: ·)
        | none => none
      else tokenizeAux fuel skipped

/-- `tokenize` (lexer.rs:63-84). -/
def tokenize (input : List Char) : Option (List Kind) := tokenizeAux (input.length + 1) input

/-! ## Parser -/

mutual
/-- `Rule` (lib.rs:94-122); nodes and tokens are `α`: numbers, or names. -/
inductive Rule (α : Type)
  | labeled (l : Name) (r : Rule α) | node (a : α) | token (a : α) | seq (rs : Rules α) | alt (rs : Rules α)
  | unorderedSome (rs : Rules α) | unorderedAll (rs : Rules α) | opt (r : Rule α) | rep (r : Rule α)
/-- A vector of rules (lib.rs:106-115). -/
inductive Rules (α : Type)
  | nil | cons (r : Rule α) (rs : Rules α)
end

/-- Is the vector empty? (parser.rs:168, 196) -/
def Rules.isNil {α : Type} : Rules α → Bool
  | .nil => true
  | .cons _ _ => false

/-- The names so far: `node_table` and `token_table` together with the names in `grammar` (parser.rs:27-33). -/
structure Tables where
  nodes : List Name := []
  tokens : List Name := []
  deriving DecidableEq, Repr

/-- The position of a name, or the number of names. (`HashMap::entry`, external; parser.rs:73-90) -/
def position (n : Name) : List Name → Nat
  | [] => 0
  | m :: ms => if m = n then 0 else position n ms + 1

/-- The names with a new one, unless it is there. (parser.rs:73-90) -/
def insert (n : Name) (ns : List Name) : List Name := if n ∈ ns then ns else ns ++ [n]

/-- `CombinatorKind::new`: is it `|`, `||` or `&&`? (lexer.rs:29-38) -/
def isCombinator (k : Kind) : Bool := k == .pipe || k == .pipe2 || k == .amp2

/-- Rules with a combinator in between (parser.rs:171-178). -/
def combine {α : Type} (k : Kind) (rs : Rules α) : Rule α :=
  if k = .amp2 then .unorderedAll rs else if k = .pipe2 then .unorderedSome rs else .alt rs

/-- The last part of `opt_atom_rule` (parser.rs:255-269). -/
def suffix (r : Rule Nat) (s : Tables) : List Kind → Option (Rule Nat) × Tables × List Kind
  | .qmark :: ts => (some (.opt r), s, ts)
  | .star :: ts => (some (.rep r), s, ts)
  | ts => (some r, s, ts)

mutual
/-- `opt_atom_rule` (parser.rs:221-270). `fuel` bounds the depth of the calls. -/
def optAtom : Nat → Tables → List Kind → Option (Option (Rule Nat) × Tables × List Kind)
  | 0, _, _ => none
  | fuel + 1, s, ts =>
    match ts with
    | .node n :: ts' =>
      if ts'.head? = some .eq then some (none, s, ts)
      else if ts'.head? = some .colon then
        match atom fuel s (ts'.drop 1) with
        | some (r, s, ts) => some (some (.labeled n r), s, ts)
        | none => none
      else some (suffix (.node (position n s.nodes)) { s with nodes := insert n s.nodes } ts')
    | .token n :: ts' => some (suffix (.token (position n s.tokens)) { s with tokens := insert n s.tokens } ts')
    | .lparen :: ts' =>
      match rule fuel s ts' with
      | some (r, s, ts'') => if ts''.head? = some .rparen then some (suffix r s (ts''.drop 1)) else none
      | none => none
    | _ => some (none, s, ts)
/-- `atom_rule` (parser.rs:207-215). -/
def atom : Nat → Tables → List Kind → Option (Rule Nat × Tables × List Kind)
  | 0, _, _ => none
  | fuel + 1, s, ts =>
    match optAtom fuel s ts with
    | some (some r, s, ts) => some (r, s, ts)
    | _ => none
/-- The loop of `seq_rule` (parser.rs:192-194). -/
def seqTail : Nat → Tables → List Kind → Option (Rules Nat × Tables × List Kind)
  | 0, _, _ => none
  | fuel + 1, s, ts =>
    match optAtom fuel s ts with
    | some (some r, s, ts) =>
      match seqTail fuel s ts with
      | some (rs, s, ts) => some (.cons r rs, s, ts)
      | none => none
    | some (none, s, ts) => some (.nil, s, ts)
    | none => none
/-- `seq_rule` (parser.rs:188-201). -/
def seq : Nat → Tables → List Kind → Option (Rule Nat × Tables × List Kind)
  | 0, _, _ => none
  | fuel + 1, s, ts =>
    match atom fuel s ts with
    | some (r, s, ts) =>
      match seqTail fuel s ts with
      | some (rs, s, ts) => some (if rs.isNil then r else .seq (.cons r rs), s, ts)
      | none => none
    | none => none
/-- The loop of `rule` (parser.rs:143-166), after the combinator `k`. -/
def altTail : Nat → Option Kind → Tables → List Kind → Option (Rules Nat × Option Kind × Tables × List Kind)
  | 0, _, _, _ => none
  | fuel + 1, k, s, ts =>
    match ts with
    | t :: ts' =>
      if isCombinator t then
        if k = none ∨ k = some t then
          match seq fuel s ts' with
          | some (r, s, ts) =>
            match altTail fuel (some t) s ts with
            | some (rs, k, s, ts) => some (.cons r rs, k, s, ts)
            | none => none
          | none => none
        else none
      else some (.nil, k, s, ts)
    | [] => some (.nil, k, s, ts)
/-- `rule` (parser.rs:125-182). That the first token is a combinator is an error in `seq` as well. -/
def rule : Nat → Tables → List Kind → Option (Rule Nat × Tables × List Kind)
  | 0, _, _ => none
  | fuel + 1, s, ts =>
    match seq fuel s ts with
    | some (r, s, ts) =>
      match altTail fuel none s ts with
      | some (rs, k, s, ts) => some (if rs.isNil then r else combine (k.getD .pipe) (.cons r rs), s, ts)
      | none => none
    | none => none
end

/-- The rules with the numbers of their nodes, in the order of the file (`NodeData::rule`, lib.rs:74-83). Simplification: in
the code they are stored next to the names. -/
abbrev Defs := List (Nat × Rule Nat)

/-- `node` (parser.rs:96-112), until all tokens are used (parser.rs:19-21). -/
def nodes : Nat → Tables → Defs → List Kind → Option (Tables × Defs)
  | _, s, ds, [] => some (s, ds)
  | fuel + 1, s, ds, .node n :: .eq :: ts =>
    if (ds.lookup (position n s.nodes)).isSome then none
    else
      match rule (6 * ts.length + 6) { s with nodes := insert n s.nodes } ts with
      | some (r, s', ts') => nodes fuel s' (ds ++ [(position n s.nodes, r)]) ts'
      | none => none
  | _, _, _, _ => none

/-- `Grammar` (lib.rs:36-41). -/
structure Grammar where
  nodes : List (Name × Rule Nat)
  tokens : List Name

/-- `Parser::finish` for the nodes from number `i` (parser.rs:64-71). -/
def finish (ds : Defs) (i : Nat) : List Name → Option (List (Name × Rule Nat))
  | [] => some []
  | n :: ns =>
    match ds.lookup i, finish ds (i + 1) ns with
    | some r, some rest => some ((n, r) :: rest)
    | _, _ => none

/-- `parse` (parser.rs:17-23). -/
def parse (ts : List Kind) : Option Grammar :=
  match nodes ts.length {} [] ts with
  | some (s, ds) => (finish ds 0 s.nodes).map fun ns => ⟨ns, s.tokens⟩
  | none => none

/-- `Grammar::from_str` (lib.rs:43-49). -/
def fromStr (text : List Char) : Option Grammar := (tokenize text).bind parse

end Verif.Ungrammar
