import Verif.Model.Text
import Verif.Model.Sort

/-!
# Text edits (`crates/aether_lsp_utils/src/text_edit.rs`, `diff.rs`)
-/

namespace Verif.TextEdit

open Verif.Text

/-- `TextRange` (external crate `biome_text_size`): construction asserts `start ≤ end`, so every
value satisfies it. (used in crates/aether_lsp_utils/src/text_edit.rs:20-26) -/
structure Range where
  start : Nat
  stop : Nat
  le : start ≤ stop := by omega
  deriving DecidableEq, Repr

/-- `Indel` (crates/aether_lsp_utils/src/text_edit.rs:20-25). -/
structure Indel where
  insert : List Char
  delete : Range
  deriving DecidableEq, Repr

/-- `Indel::apply` (text_edit.rs:52-56). -/
def Indel.apply (i : Indel) (t : List Char) : Option (List Char) :=
  replaceRange t i.delete.start i.delete.stop i.insert

/-- Running total of `TextEdit::apply` (text_edit.rs:104-112): `total_len += insert; total_len -=
delete`, `none` on `u32` underflow panic. (The `reserve` call has no observable effect.) -/
def totalLen : List Indel → Nat → Option Nat
  | [], n => some n
  | i :: is, n =>
    let m := n + size i.insert
    let d := i.delete.stop - i.delete.start
    if d ≤ m then totalLen is (m - d) else none

/-- Apply a list of indels one after the other, `none` on panic.
(crates/aether_lsp_utils/src/text_edit.rs:94-122) -/
def applySeq : List Indel → List Char → Option (List Char)
  | [], t => some t
  | i :: is, t => (i.apply t).bind (applySeq is)

/-- `TextEdit::apply` (text_edit.rs:94-122): nothing for no indel, direct application for one
indel, otherwise reverse application followed by the length assertion. -/
def apply (indels : List Indel) (t : List Char) : Option (List Char) :=
  match indels with
  | [] => some t
  | [i] => i.apply t
  | _ =>
    match totalLen indels (size t) with
    | none => none
    | some total =>
      match applySeq indels.reverse t with
      | none => none
      | some r => if size r = total then some r else none

/-- `check_disjoint` (text_edit.rs:215-223): adjacent pairs are ordered or equal. -/
def checkDisjoint : List Indel → Bool
  | [] => true
  | [_] => true
  | l :: r :: rest => (decide (l.delete.stop ≤ r.delete.start) || l == r) && checkDisjoint (r :: rest)

/-- Sort key comparison of `check_disjoint_and_sort` (text_edit.rs:211). -/
def keyLe (a b : Indel) : Bool :=
  decide (a.delete.start < b.delete.start) ||
    (decide (a.delete.start = b.delete.start) && decide (a.delete.stop ≤ b.delete.stop))

/-- `check_disjoint_and_sort` / `assert_disjoint_or_equal` (text_edit.rs:206-213): stable sort by
`(start, end)`, then the check; `none` is the assertion panic. `slice::sort_by_key` is modelled by
`Sort.stableSort`. -/
def assertDisjointOrEqual (indels : List Indel) : Option (List Indel) :=
  let s := Sort.stableSort keyLe indels
  if checkDisjoint s then some s else none

/-- `coalesce_indels` (text_edit.rs:225-238) with the semantics of `Itertools::coalesce`: the
accumulated element is merged with the next as long as they touch. -/
def coalesce : List Indel → List Indel
  | [] => []
  | a :: rest => go a rest
where
  go (a : Indel) : List Indel → List Indel
    | [] => [a]
    | b :: rest =>
      if h : a.delete.stop = b.delete.start then
        go { insert := a.insert ++ b.insert,
             delete := { start := a.delete.start, stop := b.delete.stop,
                         le := by have := a.delete.le; have := b.delete.le; omega } } rest
      else a :: go b rest

/-- `TextEditBuilder::indel` (text_edit.rs:198-203). -/
def builderIndel (b : List Indel) (i : Indel) : Option (List Indel) :=
  let b := b ++ [i]
  if b.length ≤ 16 then assertDisjointOrEqual b else some b

/-- `TextEditBuilder::finish` (text_edit.rs:187-192). -/
def builderFinish (b : List Indel) : Option (List Indel) :=
  (assertDisjointOrEqual b).map coalesce

/-- A run of the builder: a list of `insert`/`delete`/`replace` calls (text_edit.rs:178-186, each of
which is an `indel` call) followed by `finish`. -/
def build (calls : List Indel) : Option (List Indel) :=
  (calls.foldlM builderIndel []).bind builderFinish

/-- `Itertools::merge_by` with `l.start <= r.start` (text_edit.rs:125-127). -/
def mergeBy : List Indel → List Indel → List Indel
  | [], r => r
  | l :: ls, r => row l (mergeBy ls) r
where
  /-- Emit elements of the right list until `l` comes first, then continue with the rest `k`. -/
  row (l : Indel) (k : List Indel → List Indel) : List Indel → List Indel
    | [] => l :: k []
    | r :: rs => if l.delete.start ≤ r.delete.start then l :: k (r :: rs) else r :: row l k rs

/-- `Itertools::dedup_by(|a, b| a == b && !a.delete.is_empty())` (text_edit.rs:133-136): of
a run of equal non-empty deletions the first is kept. -/
def dedup : List Indel → List Indel
  | [] => []
  | a :: rest => go a rest
where
  go (a : Indel) : List Indel → List Indel
    | [] => [a]
    | b :: rest => if a = b ∧ a.delete.start ≠ a.delete.stop then go a rest else a :: go b rest

/-- `TextEdit::union` (text_edit.rs:124-138): `(self', result)`; `none` as result is `Ok(())`,
`some other` is `Err(other)`. -/
def union (self other : List Indel) : List Indel × Option (List Indel) :=
  let m := mergeBy self other
  if checkDisjoint m then (dedup m, none) else (self, some other)

/-- `TextEdit::apply_to_offset` (text_edit.rs:140-153). Outer `none`: `u32` underflow panic; inner
`none`: the method returns `None` (offset was deleted). -/
def applyToOffset (indels : List Indel) (offset : Nat) : Option (Option Nat) :=
  go indels offset
where
  go : List Indel → Nat → Option (Option Nat)
    | [], res => some (some res)
    | i :: is, res =>
      if i.delete.start ≥ offset then some (some res)
      else if offset < i.delete.stop then some none
      else
        let m := res + size i.insert
        let d := i.delete.stop - i.delete.start
        if d ≤ m then go is (m - d) else none

/-- `TextEditBuilder::invalidates_offset` (text_edit.rs:193-197). -/
def invalidatesOffset (indels : List Indel) (offset : Nat) : Bool :=
  indels.any fun i => decide (i.delete.start ≤ offset) && decide (offset ≤ i.delete.stop)

/-- `dissimilar::Chunk`. (external; crates/aether_lsp_utils/src/diff.rs:11-45) -/
inductive Chunk
  | equal (t : List Char)
  | delete (t : List Char)
  | insert (t : List Char)
  deriving DecidableEq, Repr

/-- `TextRange::at(pos, len)`. (external; crates/aether_lsp_utils/src/diff.rs:11-45) -/
def Range.at (pos len : Nat) : Range := { start := pos, stop := pos + len, le := by omega }

/-- The loop of `diff` (crates/aether_lsp_utils/src/diff.rs:19-44) as the list of builder calls it
makes for the chunks returned by `dissimilar::diff`. -/
def diffCalls : List Chunk → Nat → List Indel
  | [], _ => []
  | .delete d :: .insert i :: rest, pos =>
    { insert := i, delete := Range.at pos (size d) } :: diffCalls rest (pos + size d)
  | .equal t :: rest, pos => diffCalls rest (pos + size t)
  | .delete d :: rest, pos =>
    { insert := [], delete := Range.at pos (size d) } :: diffCalls rest (pos + size d)
  | .insert i :: rest, pos =>
    { insert := i, delete := Range.at pos 0 } :: diffCalls rest pos

/-- `diff` (diff.rs:11-45) given the chunks of the external `dissimilar::diff`. -/
def diffOf (chunks : List Chunk) : Option (List Indel) := build (diffCalls chunks 0)

end Verif.TextEdit
