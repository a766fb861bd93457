/-!
# Texts with byte offsets

A Rust `String` is modelled as the list of its characters; offsets are byte offsets into the
UTF-8 encoding. Slicing a `String` at an offset that is out of bounds or not on a character
boundary panics in Rust; here the operation returns `none`.
-/

namespace Verif.Text

/-- `TextSize::of(text)` / `str::len`: number of UTF-8 bytes. (external; used in
crates/aether_lsp_utils/src/text_edit.rs:94-122) -/
def size (t : List Char) : Nat := (t.map Char.utf8Size).sum

/-- Split a text at a byte offset; `none` models the panic of `str` slicing for an offset that is
out of bounds or inside of a character. (std, external; used in
crates/aether_lsp_utils/src/proto/from_proto.rs:123) -/
def splitAt : List Char → Nat → Option (List Char × List Char)
  | t, 0 => some ([], t)
  | [], _ + 1 => none
  | c :: cs, n + 1 =>
    if c.utf8Size ≤ n + 1 then
      (splitAt cs (n + 1 - c.utf8Size)).map fun (a, b) => (c :: a, b)
    else none

/-- `String::replace_range(start..end, with)`: panics (`none`) unless `start ≤ end`, `end` is in
bounds and both lie on character boundaries. (std, external; used in
crates/aether_lsp_utils/src/proto/from_proto.rs:123, crates/aether_lsp_utils/src/text_edit.rs:52-58) -/
def replaceRange (t : List Char) (start stop : Nat) (ins : List Char) : Option (List Char) :=
  if start ≤ stop then
    match splitAt t start, splitAt t stop with
    | some (a, _), some (_, d) => some (a ++ ins ++ d)
    | _, _ => none
  else none

end Verif.Text
