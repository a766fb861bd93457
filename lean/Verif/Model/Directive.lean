/-!
# Comment directives

Models `crates/comments/src/directive.rs`. Texts are lists of characters.
-/

namespace Verif.Directive

/-- `FormatDirective` (directive.rs:6-11); `Directive` (directive.rs:1-4) has only one variant. -/
inductive Directive | skip | skipFile | table
  deriving DecidableEq, Repr

/-- `char::is_whitespace`: the Unicode property `White_Space`. (external; used through `trim` in
crates/comments/src/directive.rs:37-80) -/
def isWhite (c : Char) : Bool :=
  let n := c.val.toNat
  (9 ≤ n && n ≤ 13) || n == 0x20 || n == 0x85 || n == 0xA0 || n == 0x1680 ||
    (0x2000 ≤ n && n ≤ 0x200A) || n == 0x2028 || n == 0x2029 || n == 0x202F || n == 0x205F ||
    n == 0x3000

/-- `str::trim_start`. (external; crates/comments/src/directive.rs:51-57) -/
def trimStart (t : List Char) : List Char := t.dropWhile isWhite

/-- `str::trim`. (external; crates/comments/src/directive.rs:37-80) -/
def trim (t : List Char) : List Char := ((trimStart t).reverse.dropWhile isWhite).reverse

/-- `trim_comment` (directive.rs:49-55). -/
def trimComment : List Char → Option (List Char)
  | '#' :: t => some (trimStart (t.dropWhile (· == '#')))
  | _ => none

/-- `str::split_once(':')`. (external; crates/comments/src/directive.rs:37-50) -/
def splitColon : List Char → Option (List Char × List Char)
  | [] => none
  | ':' :: t => some ([], t)
  | c :: t => (splitColon t).map fun (a, b) => (c :: a, b)

/-- `parse_format_directive` (directive.rs:57-65). -/
def parseFormatDirective (t : List Char) : Option Directive :=
  if t = "skip".toList then some .skip
  else if t = "skip file".toList then some .skipFile
  else if t = "table".toList then some .table
  else none

/-- `parse_comment_directive` (directive.rs:36-47). -/
def parseCommentDirective (t : List Char) : Option Directive := do
  let t ← trimComment t
  let (category, t) ← splitColon t
  let t := trim t
  if category = "fmt".toList then parseFormatDirective t else none

/-- `parse_special_skip_file` (directive.rs:67-79). -/
def parseSpecialSkipFile (t : List Char) : Option Directive := do
  let t ← trimComment t
  if "Generated by".toList.isPrefixOf t then some .skipFile else none

end Verif.Directive
