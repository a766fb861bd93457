import Verif.Spec.Lines

/-!
# White space of a neat file

What a formatted file looks like between its tokens and comments, said without the printer: a reader
that only remembers what it saw last.
-/

namespace Verif.Format

/-- What the reader saw last: nothing yet, text, a space after text, `n` line feeds, or the indentation
of a line. -/
inductive Last | start | text | gap | lines (n : Nat) | margin
  deriving DecidableEq, Repr

/-- One more piece of the file, `none` if it is not neat:
* a file starts with text;
* text is followed by text, by a single space or by a line feed;
* a space and the indentation of a line are followed by text: no line ends with white space, and there
  is no white space on blank lines;
* there are at most two blank lines in a row, and only one before a line that is indented. -/
def Last.next : Last → El → Option Last
  | .start, e => if e.isText then some .text else none
  | .text, .rnl => some (.lines 1)
  | .text, .blank bs => if bs = [32] then some .gap else none
  | .text, e => if e.isText then some .text else none
  | .gap, e => if e.isText then some .text else none
  | .lines n, .rnl => if n < 3 then some (.lines (n + 1)) else none
  | .lines n, .blank bs => if n < 3 ∧ bs ≠ [] ∧ bs = List.replicate bs.length 9 then some .margin else none
  | .lines _, e => if e.isText then some .text else none
  | .margin, e => if e.isText then some .text else none

/-- All pieces. -/
def Last.read (q : Last) : List El → Option Last
  | [] => some q
  | e :: es =>
    match q.next e with
    | some q => q.read es
    | none => none

/-- The white space of a file is neat: it is empty, or its lines are as described above and it ends
with exactly one line feed. -/
def NeatFile (els : List El) : Prop := els = [] ∨ Last.start.read els = some (.lines 1)

instance (els : List El) : Decidable (NeatFile els) := by unfold NeatFile; infer_instance

end Verif.Format
