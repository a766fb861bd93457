/-!
# Line endings (`crates/line_ending/src/lib.rs`)

The text is a list of symbols. `cr` and `lf` are the two distinguished symbols; the
byte-level instance (what the Rust code works on) is `UInt8` with 13 and 10, the
character-level instance used by the LSP models is `Char`. `Lemmas/Utf8.lean` relates both.
-/

namespace Verif.LineEnding

/-- `settings::LineEnding` (crates/settings/src/line_ending.rs:3-11). -/
inductive Ending | lf | crlf
  deriving DecidableEq, Repr

section Generic
variable {α : Type} [DecidableEq α]

/-- `memmem::Finder::new(b"\r\n").find(x)`: index of the first occurrence of CR LF
(crates/line_ending/src/lib.rs:11; the external `memchr` crate is modelled by its contract,
here as a computable first-occurrence search). -/
def findCrlf (cr lf : α) : List α → Option Nat
  | [] => none
  | [_] => none
  | a :: b :: rest =>
    if a = cr ∧ b = lf then some 0
    else (findCrlf cr lf (b :: rest)).map (· + 1)

/-- `infer` (crates/line_ending/src/lib.rs:13-20). -/
def infer (cr lf : α) (x : List α) : Ending :=
  match findCrlf cr lf x with
  | some _ => .crlf
  | none => .lf

/-- `slice::copy_within(src..src_end, 0)` on `tail`; `none` models the bounds panic. (external;
crates/line_ending/src/lib.rs:52) -/
def copyWithin0 (tail : List α) (src srcEnd : Nat) : Option (List α) :=
  if src ≤ srcEnd ∧ srcEnd ≤ tail.length then
    some ((tail.take srcEnd).drop src ++ tail.drop (srcEnd - src))
  else none

/-- The loop of `normalize` (crates/line_ending/src/lib.rs:41-58). The buffer is
`done ++ tail` where `tail` is the mutable slice the loop narrows. `fuel` bounds the number
of iterations; `none` stands for a panic (slice index out of bounds) or exhausted fuel.
The two exits are the early return for "no CRLF seen" and the `break`
followed by `set_len(buf.len() - gap_len)` (lib.rs:60-66). -/
def normalizeLoop (cr lf : α) : Nat → List α → List α → Nat → Bool → Option (List α)
  | 0, _, _, _, _ => none
  | fuel + 1, done, tail, gap, seen =>
    -- `&tail[gap_len..]` panics if out of bounds
    if tail.length < gap then none
    else
      let idx? : Option Nat :=
        match findCrlf cr lf (tail.drop gap) with
        | none => if seen then some tail.length else none
        | some idx => some (idx + gap)
      match idx? with
      | none => some (done ++ tail)            -- `return String::from_utf8_unchecked(buf)`
      | some idx =>
        let seen := seen || (findCrlf cr lf (tail.drop gap)).isSome
        match copyWithin0 tail gap idx with
        | none => none
        | some tail' =>
          -- `tail = &mut tail[idx - gap_len..]`
          let done' := done ++ tail'.take (idx - gap)
          let tail'' := tail'.drop (idx - gap)
          if tail''.length = gap then
            -- `break`, then `set_len(buf.len() - gap_len)`
            let buf := done' ++ tail''
            some (buf.take (buf.length - gap))
          else normalizeLoop cr lf fuel done' tail'' (gap + 1) seen

/-- `normalize` (crates/line_ending/src/lib.rs:35-67). Fuel: one iteration per symbol plus two. -/
def normalize (cr lf : α) (x : List α) : Option (List α) :=
  normalizeLoop cr lf (x.length + 2) [] x 0 false

/-- `normalize_ref` (crates/line_ending/src/lib.rs:73-78); borrowed/owned distinction dropped. -/
def normalizeRef (cr lf : α) (x : List α) : Option (List α) :=
  match infer cr lf x with
  | .lf => some x
  | .crlf => normalize cr lf x

/-- `str::replace('\n', "\r\n")` as used in crates/aether_lsp_utils/src/proto/to_proto.rs:65-68. -/
def toCrlf (cr lf : α) (x : List α) : List α :=
  x.flatMap fun a => if a = lf then [cr, lf] else [a]

end Generic

/-- `workspace::settings::LineEnding` (crates/workspace/src/settings/line_ending.rs:10-28). -/
inductive Setting | auto | lf | crlf | native
  deriving DecidableEq, Repr

/-- `LineEnding::finalize` (crates/workspace/src/settings/line_ending.rs:41-53). The `cfg!(windows)`
switch of `Native` is the parameter `windows`. -/
def Setting.finalize (windows : Bool) (s : Setting) (src : List Char) : Ending :=
  match s with
  | .auto => infer '\r' '\n' src
  | .lf => .lf
  | .crlf => .crlf
  | .native => if windows then .crlf else .lf

end Verif.LineEnding
