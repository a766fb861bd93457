import Verif.Model.Ungrammar

/-!
# How grammars are written
-/

namespace Verif.Ungrammar

/-! ## Rules as they are written, with their parentheses -/

mutual
/-- A node, a token, or parentheses. -/
inductive Base
  | node (n : Name) | token (t : Name) | paren (w : Whole)
/-- Perhaps with `?` or `*` after it, or with a label before it. -/
inductive Atom
  | base (b : Base) | opt (b : Base) | rep (b : Base) | labeled (l : Name) (a : Atom)
inductive Atoms
  | nil | cons (a : Atom) (as : Atoms)
/-- One or more, one after the other. -/
inductive Seq
  | mk (a : Atom) (as : Atoms)
inductive Parts
  | nil | cons (q : Seq) (qs : Parts)
/-- One or more, with one of `|`, `||`, `&&` between them. -/
inductive Whole
  | mk (q : Seq) (k : Kind) (hk : isCombinator k = true) (qs : Parts)
end

mutual
/-- The tokens. -/
def Base.toks : Base → List Kind
  | .node n => [.node n]
  | .token t => [.token t]
  | .paren w => .lparen :: (w.toks ++ [.rparen])
def Atom.toks : Atom → List Kind
  | .base b => b.toks
  | .opt b => b.toks ++ [.qmark]
  | .rep b => b.toks ++ [.star]
  | .labeled l a => .node l :: .colon :: a.toks
def Atoms.toks : Atoms → List Kind
  | .nil => []
  | .cons a as => a.toks ++ as.toks
def Seq.toks : Seq → List Kind
  | .mk a as => a.toks ++ as.toks
def Parts.toks (k : Kind) : Parts → List Kind
  | .nil => []
  | .cons q qs => k :: (q.toks ++ qs.toks k)
def Whole.toks : Whole → List Kind
  | .mk q k _ qs => q.toks ++ qs.toks k
end

mutual
/-- What is meant. -/
def Base.rule : Base → Rule Name
  | .node n => .node n
  | .token t => .token t
  | .paren w => w.rule
def Atom.rule : Atom → Rule Name
  | .base b => b.rule
  | .opt b => .opt b.rule
  | .rep b => .rep b.rule
  | .labeled l a => .labeled l a.rule
def Atoms.rules : Atoms → Rules Name
  | .nil => .nil
  | .cons a as => .cons a.rule as.rules
def Seq.rule : Seq → Rule Name
  | .mk a as => match as with
    | .nil => a.rule
    | .cons b bs => .seq (.cons a.rule (.cons b.rule bs.rules))
def Parts.rules : Parts → Rules Name
  | .nil => .nil
  | .cons q qs => .cons q.rule qs.rules
def Whole.rule : Whole → Rule Name
  | .mk q k _ qs => match qs with
    | .nil => q.rule
    | .cons p ps => match k with
      | .amp2 => .unorderedAll (.cons q.rule (.cons p.rule ps.rules))
      | .pipe2 => .unorderedSome (.cons q.rule (.cons p.rule ps.rules))
      | _ => .alt (.cons q.rule (.cons p.rule ps.rules))
end

mutual
/-- The nodes in a rule. -/
def Rule.mentions {α : Type} : Rule α → List α
  | .labeled _ r => r.mentions
  | .node a => [a]
  | .token _ => []
  | .seq rs => rs.mentions
  | .alt rs => rs.mentions
  | .unorderedSome rs => rs.mentions
  | .unorderedAll rs => rs.mentions
  | .opt r => r.mentions
  | .rep r => r.mentions
def Rules.mentions {α : Type} : Rules α → List α
  | .nil => []
  | .cons r rs => r.mentions ++ rs.mentions
end

mutual
/-- The tokens in a rule. -/
def Rule.literals {α : Type} : Rule α → List α
  | .labeled _ r => r.literals
  | .node _ => []
  | .token a => [a]
  | .seq rs => rs.literals
  | .alt rs => rs.literals
  | .unorderedSome rs => rs.literals
  | .unorderedAll rs => rs.literals
  | .opt r => r.literals
  | .rep r => r.literals
def Rules.literals {α : Type} : Rules α → List α
  | .nil => []
  | .cons r rs => r.literals ++ rs.literals
end

/-- A grammar as it is written: names and their rules. -/
abbrev File := List (Name × Whole)

/-- The tokens of `name = rule` one after the other. -/
def File.toks (f : File) : List Kind := f.flatMap fun d => .node d.1 :: .eq :: d.2.toks

/-- No name has two rules, and all names in rules have one. -/
structure File.Good (f : File) : Prop where
  once : (f.map Prod.fst).Nodup
  defined : ∀ d ∈ f, ∀ n ∈ d.2.rule.mentions, n ∈ f.map Prod.fst

mutual
/-- A rule with the names of the grammar instead of numbers. -/
def Rule.resolve (ns ts : List Name) : Rule Nat → Option (Rule Name)
  | .labeled l r => (r.resolve ns ts).map (.labeled l)
  | .node a => (ns[a]?).map .node
  | .token a => (ts[a]?).map .token
  | .seq rs => (rs.resolve ns ts).map .seq
  | .alt rs => (rs.resolve ns ts).map .alt
  | .unorderedSome rs => (rs.resolve ns ts).map .unorderedSome
  | .unorderedAll rs => (rs.resolve ns ts).map .unorderedAll
  | .opt r => (r.resolve ns ts).map .opt
  | .rep r => (r.resolve ns ts).map .rep
def Rules.resolve (ns ts : List Name) : Rules Nat → Option (Rules Name)
  | .nil => some .nil
  | .cons r rs => match r.resolve ns ts, rs.resolve ns ts with
    | some r, some rs => some (.cons r rs)
    | _, _ => none
end

/-- The grammar has exactly the names of the file, each with its rule, and the tokens of these; nothing has two numbers. -/
structure Grammar.Describes (g : Grammar) (f : File) : Prop where
  once : (g.nodes.map Prod.fst).Nodup
  tokens : g.tokens.Nodup
  only : ∀ n ∈ g.nodes.map Prod.fst, n ∈ f.map Prod.fst
  literals : ∀ t ∈ g.tokens, ∃ d ∈ f, t ∈ d.2.rule.literals
  all : ∀ d ∈ f, ∃ r, (d.1, r) ∈ g.nodes ∧ r.resolve (g.nodes.map Prod.fst) g.tokens = some d.2.rule

/-! ## Texts -/

/-- Blanks, line feeds and comments. -/
inductive Gap : List Char → Prop
  | nil : Gap []
  | ws {c : Char} {g : List Char} (hc : c = ' ' ∨ c = '\t' ∨ c = '\n') (h : Gap g) : Gap (c :: g)
  | comment {line g : List Char} (hl : '\n' ∉ line) (h : Gap g) : Gap ('/' :: '/' :: (line ++ '\n' :: g))

/-- A letter, a digit or an underscore. -/
def isWord (c : Char) : Prop := ('a' ≤ c ∧ c ≤ 'z') ∨ ('A' ≤ c ∧ c ≤ 'Z') ∨ c = '_' ∨ ('0' ≤ c ∧ c ≤ '9')

/-- A character between quotes. -/
def escape (c : Char) : List Char := if c = '\'' ∨ c = '\\' then ['\\', c] else [c]

/-- A token as text. -/
def Kind.text : Kind → List Char
  | .node n => n
  | .token t => '\'' :: (t.flatMap escape ++ ['\''])
  | .eq => ['=']
  | .star => ['*']
  | .pipe => ['|']
  | .qmark => ['?']
  | .colon => [':']
  | .lparen => ['(']
  | .rparen => [')']
  | .pipe2 => ['|', '|']
  | .amp2 => ['&', '&']

/-- Nodes are words. -/
def Kind.Ok : Kind → Prop
  | .node n => n ≠ [] ∧ ∀ c ∈ n, isWord c
  | _ => True

/-- What comes after a token does not belong to it. -/
def Kind.Apart (rest : List Char) : Kind → Prop
  | .node _ => ∀ c, rest.head? = some c → ¬isWord c
  | .pipe => rest.head? ≠ some '|'
  | _ => True

/-- A text has these tokens. -/
inductive Text : List Kind → List Char → Prop
  | nil {g : List Char} (h : Gap g) : Text [] g
  | last {g line : List Char} (h : Gap g) (hl : '\n' ∉ line) : Text [] (g ++ '/' :: '/' :: line)
  | cons {g rest : List Char} {k : Kind} {ks : List Kind} (hg : Gap g) (hk : k.Ok) (ha : k.Apart rest) (h : Text ks rest) :
    Text (k :: ks) (g ++ (k.text ++ rest))

end Verif.Ungrammar
