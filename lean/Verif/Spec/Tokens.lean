import Verif.Model.Doc
import Verif.Model.Settings

/-!
# Permitted changes to the sequence of tokens
-/

namespace Verif.Format
open Verif.Syntax

/-- The tokens `b` arise from the tokens `a` by putting braces around some contiguous parts, and by
replacing assignment operators in the direction the style asks for. -/
inductive Edits (style : Settings.AssignmentStyle) : List Tok → List Tok → Prop
  | nil : Edits style [] []
  | same (t : Tok) {a b : List Tok} : Edits style a b → Edits style (t :: a) (t :: b)
  | arrow (t : Tok) {a b : List Tok} : style = .arrow → t.kind = .equal → Edits style a b →
      Edits style (t :: a) (⟨.assign, [60, 45]⟩ :: b)
  | equal (t : Tok) {a b : List Tok} : style = .equal → t.kind = .assign → Edits style a b →
      Edits style (t :: a) (⟨.equal, [61]⟩ :: b)
  | braces {a b c d : List Tok} : Edits style a b → Edits style c d →
      Edits style (a ++ c) (⟨.lCurly, [123]⟩ :: (b ++ ⟨.rCurly, [125]⟩ :: d))

end Verif.Format
