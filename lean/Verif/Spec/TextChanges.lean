import Verif.Spec.LineIndex
import Verif.Spec.LineEnding
import Verif.Model.TextChanges

/-!
# Specification of document synchronisation and editor edits

`Step`: one content change on a text with LF line ends, by the meaning of positions (`posOf`), no line
index involved. `LspStep`, `LspEdits`: what the editor does to its own buffer; there CR LF, LF and CR
all end a line, as the language server protocol demands, and no position lies between the CR and the
LF of a pair.
-/

namespace Verif.TextChanges
open Verif.LineIndex Verif.LineEnding

/-- Effect of one change on an LF text. -/
inductive Step (enc : Encoding) : List Char → Change → List Char → Prop
  | full (t text : List Char) : Step enc t { range := none, text } (replaceCrlf '\r' '\n' text)
  | incremental (a m b text : List Char) :
      Step enc (a ++ m ++ b)
        { range := some { start := posOf enc a, stop := posOf enc (a ++ m) }, text }
        (a ++ replaceCrlf '\r' '\n' text ++ b)

/-- Effect of a list of changes, one after the other. -/
inductive Steps (enc : Encoding) : List Char → List Change → List Char → Prop
  | nil (t) : Steps enc t [] t
  | cons {t t' t'' c cs} (h : Step enc t c t') (hs : Steps enc t' cs t'') : Steps enc t (c :: cs) t''

/-- Sequential reference: every change is interpreted with a line index freshly built from the text
it is applied to (also for positions that do not exist in the text). -/
def refChanges (enc : Encoding) : List Change → List Char → Option (List Char)
  | [], t => some t
  | c :: rest, t =>
    match c.range with
    | none => refChanges enc rest (replaceCrlf '\r' '\n' c.text)
    | some r =>
      (textRange enc (LineIndex.new t) r).bind fun (s, e) =>
        (Text.replaceRange t s e (replaceCrlf '\r' '\n' c.text)).bind (refChanges enc rest)

/-- Simultaneous application of edits given in document order to the LF text `pre ++ rest`, of which
`pre` has been passed already; inserted texts are LF-normalised. -/
inductive LfEdits (enc : Encoding) : List Char → List Edit → List Char → List Char → Prop
  | done (pre rest) : LfEdits enc pre [] rest rest
  | step {pre keep del rest new es e}
      (hstart : e.range.start = posOf enc (pre ++ keep))
      (hstop : e.range.stop = posOf enc (pre ++ keep ++ del))
      (h : LfEdits enc (pre ++ keep ++ del) es rest new) :
      LfEdits enc pre (e :: es) (keep ++ del ++ rest)
        (keep ++ replaceCrlf '\r' '\n' e.newText ++ new)

/-- Every CR is followed by LF. -/
def NoLoneCr (x : List Char) : Prop := ∀ p s, x = p ++ '\r' :: s → ∃ s', s = '\n' :: s'

/-- Position at the end of `a` by the rules of the protocol: `\n`, `\r\n` and `\r` end a line. -/
def lspPosGo (enc : Encoding) : List Char → Pos → Pos
  | [], p => p
  | '\r' :: '\n' :: rest, p => lspPosGo enc rest { line := p.line + 1, character := 0 }
  | '\r' :: rest, p => lspPosGo enc rest { line := p.line + 1, character := 0 }
  | '\n' :: rest, p => lspPosGo enc rest { line := p.line + 1, character := 0 }
  | c :: rest, p => lspPosGo enc rest { line := p.line, character := p.character + units enc c }

def lspPos (enc : Encoding) (a : List Char) : Pos := lspPosGo enc a { line := 0, character := 0 }

/-- The cut between `a` and `b` is not inside of a CR LF pair. -/
def Cut (a b : List Char) : Prop := ¬ ((∃ q, a = q ++ ['\r']) ∧ ∃ q, b = '\n' :: q)

/-- What the editor did to its own buffer before sending the change. -/
inductive LspStep (enc : Encoding) : List Char → Change → List Char → Prop
  | full (t text : List Char) : LspStep enc t { range := none, text } text
  | incremental (a m b text : List Char) (h1 : Cut a (m ++ b)) (h2 : Cut (a ++ m) b) :
      LspStep enc (a ++ m ++ b)
        { range := some { start := lspPos enc a, stop := lspPos enc (a ++ m) }, text }
        (a ++ text ++ b)

inductive LspSteps (enc : Encoding) : List Char → List Change → List Char → Prop
  | nil (t) : LspSteps enc t [] t
  | cons {t t' t'' c cs} (h : LspStep enc t c t') (hs : LspSteps enc t' cs t'') :
      LspSteps enc t (c :: cs) t''

/-- The editor applies a list of edits (in document order) simultaneously to its buffer
`pre ++ rest`, of which `pre` has been passed already. -/
inductive LspEdits (enc : Encoding) : List Char → List Edit → List Char → List Char → Prop
  | done (pre rest) : LspEdits enc pre [] rest rest
  | step {pre keep del rest new es e}
      (h1 : Cut (pre ++ keep) (del ++ rest)) (h2 : Cut (pre ++ keep ++ del) rest)
      (hstart : e.range.start = lspPos enc (pre ++ keep))
      (hstop : e.range.stop = lspPos enc (pre ++ keep ++ del))
      (h : LspEdits enc (pre ++ keep ++ del) es rest new) :
      LspEdits enc pre (e :: es) (keep ++ del ++ rest) (keep ++ e.newText ++ new)

end Verif.TextChanges
