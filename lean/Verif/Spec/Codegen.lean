import Verif.Model.Codegen

/-!
# What a grammar means
-/

namespace Verif.Ungrammar

/-- A rule that lists other nodes: `A = B | C`. (A `;` among them does not count.) -/
def Rule.IsUnion (r : Rule Name) : Prop :=
  ∃ rs : Rules Name, r = .alt rs ∧ ∀ a ∈ rs.toList, (∃ m, a = .node m) ∨ a = .token [';']

/-- A node of kind `k` is an `n`: because it is called so, or because it is one of the nodes that `n` lists. -/
inductive Belongs (g : Gram) : Name → Elem → Prop
  | own {n : Name} {r : Rule Name} (h : (n, r) ∈ g) (hs : n ≠ syntaxElement) (hr : ¬r.IsUnion) : Belongs g n (.node n)
  | variant {n m : Name} {rs : Rules Name} {k : Elem} (h : (n, .alt rs) ∈ g) (hs : n ≠ syntaxElement)
    (hr : (Rule.alt rs).IsUnion) (hm : .node m ∈ rs.toList) (hk : Belongs g m k) : Belongs g n k

mutual
/-- The children that a rule describes. -/
inductive Lang (g : Gram) : Rule Name → List Elem → Prop
  | node {n : Name} {k : Elem} (h : Belongs g n k) : Lang g (.node n) [k]
  | token {t : Name} (h : t ≠ []) : Lang g (.token t) [.token t]
  /-- The token without characters stands for nothing. -/
  | hole : Lang g (.token []) []
  | labeled {l : Name} {r : Rule Name} {cs : List Elem} (h : Lang g r cs) : Lang g (.labeled l r) cs
  | seq {rs : Rules Name} {cs : List Elem} (h : LangSeq g rs cs) : Lang g (.seq rs) cs
  | alt {rs : Rules Name} {cs : List Elem} (h : LangAlt g rs cs) : Lang g (.alt rs) cs
  | absent {r : Rule Name} : Lang g (.opt r) []
  | present {r : Rule Name} {cs : List Elem} (h : Lang g r cs) : Lang g (.opt r) cs
  | done {r : Rule Name} : Lang g (.rep r) []
  | again {r : Rule Name} {cs ds : List Elem} (h : Lang g r cs) (h' : Lang g (.rep r) ds) : Lang g (.rep r) (cs ++ ds)
inductive LangSeq (g : Gram) : Rules Name → List Elem → Prop
  | nil : LangSeq g .nil []
  | cons {r : Rule Name} {rs : Rules Name} {cs ds : List Elem} (h : Lang g r cs) (h' : LangSeq g rs ds) :
    LangSeq g (.cons r rs) (cs ++ ds)
inductive LangAlt (g : Gram) : Rules Name → List Elem → Prop
  | here {r : Rule Name} {rs : Rules Name} {cs : List Elem} (h : Lang g r cs) : LangAlt g (.cons r rs) cs
  | there {r : Rule Name} {rs : Rules Name} {cs : List Elem} (h : LangAlt g rs cs) : LangAlt g (.cons r rs) cs
end

/-- Unions are nested less than `depth` deep; in particular none lists itself. -/
def Ranked (g : Gram) (depth : Nat) : Prop :=
  ∃ rank : Name → Nat, (∀ n, rank n < depth) ∧
    ∀ n rs m, (n, Rule.alt rs) ∈ g → (Rule.alt rs).IsUnion → .node m ∈ rs.toList → rank m < rank n

mutual
/-- The only alternatives are between tokens, with a label, and nothing may be in any order. -/
def Rule.Plain : Rule Name → Prop
  | .labeled _ (.alt rs) => ∀ a ∈ rs.toList, ∃ t, a = .token t ∧ t ≠ []
  | .labeled _ (.opt (.alt rs)) => ∀ a ∈ rs.toList, ∃ t, a = .token t ∧ t ≠ []
  | .labeled _ r => r.Plain
  | .node _ => True
  | .token _ => True
  | .seq rs => rs.Plain
  | .opt r => r.Plain
  | _ => False
def Rules.Plain : Rules Name → Prop
  | .nil => True
  | .cons r rs => r.Plain ∧ rs.Plain
end

/-- The fields up to the first that is not optional. -/
def reach : List Field → List Field
  | [] => []
  | f :: fs => f :: if f.optional then reach fs else []

/-- Nothing fits an optional field and another that could be next. -/
def Clear (test : Field → Elem → Bool) : List Field → Prop
  | [] => True
  | f :: fs => (f.optional = true → ∀ q ∈ reach fs, ∀ k, ¬(test f k = true ∧ test q k = true)) ∧ Clear test fs

end Verif.Ungrammar
