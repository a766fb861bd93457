import Verif.Spec.Stable
import Verif.Spec.Parser
import Verif.Model.FormatRules

/-!
# Files whose comments lead statements

`Exprs.noted`: all comments stand in front of statements, in the file or in braces.

`RereadsNoted`: a file is what is read in a printed text that may have comments.
-/

namespace Verif.Format
open Verif.Syntax

/-- No comments after or in the node. -/
def Ann.leads (a : Ann) : Bool := a.dangling.isEmpty && a.trailing.isEmpty

/-- No comments. -/
def Ann.bare (a : Ann) : Bool := a.leading.isEmpty && a.leads

/-- No comments in front of the first token. -/
def startsQuiet : List Token → Bool
  | [] => true
  | t :: _ => !hasComment t.leading

mutual
/-- Comments of the expression lead the expression itself or statements in braces. In the places of the program
where the formatter looks for comments in the source (parentheses, arguments, operators, bodies, `else`) there are
none, and there are none in the double braces of embraced names and in parameters. -/
def Expr.noted : Expr → Bool
  | .atom a _ _ => a.leads
  | .str a _ _ _ => a.leads
  | .paren a _ e _ => a.leads && e.ann.bare && !commentsDirect e.tokens && e.noted
  | .braced a _ es _ => a.leads && ((curlyCurly true es).isNone || es.comments.isEmpty) && es.noted
  | .unary a _ e => a.leads && e.ann.bare && e.noted
  | .binary a x _ y => a.leads && x.ann.bare && x.noted && y.ann.bare && startsQuiet y.tokens && y.noted
  | .sel a _ x _ y => a.leads && x.ann.bare && x.noted && y.ann.bare && y.noted
  | .call a _ f aa _ items r =>
    a.leads && aa.bare && f.ann.bare && f.noted && items.noted && !hasComment r.leading
  | .func a _ pa _ items _ b =>
    a.leads && pa.bare && items.comments.isEmpty && items.noted && b.ann.bare && startsQuiet b.tokens && b.noted
  | .ite a _ _ c _ t => a.leads && c.ann.bare && c.noted && t.ann.bare && startsQuiet t.tokens && t.noted
  | .itee a _ _ c _ t ea el e =>
    a.leads && ea.bare && c.ann.bare && c.noted && t.ann.bare && startsQuiet t.tokens && t.noted &&
      !hasComment el.leading && e.ann.bare && startsQuiet e.tokens && e.noted
  | .for_ a _ _ v _ s _ b => a.leads && v.ann.bare && v.noted && s.ann.bare && s.noted && b.ann.bare && b.noted
  | .while_ a _ _ c _ b => a.leads && c.ann.bare && c.noted && b.ann.bare && b.noted
  | .repeat_ a _ b => a.leads && b.ann.bare && b.noted
def Exprs.noted : Exprs → Bool
  | .nil => true
  | .cons e es => e.noted && es.noted
def Items.noted : Items → Bool
  | .nil => true
  | .last x => x.noted
  | .cons x _ xs => x.noted && xs.noted
def Arg.noted : Arg → Bool
  | .hole a => a.bare
  | .val a e => a.bare && e.ann.bare && !commentsDirect e.tokens && e.noted
  | .name a na n _ => a.bare && na.bare && n.ann.bare && startsQuiet n.tokens && n.noted
  | .named a na n _ e => a.bare && na.bare && n.ann.bare && startsQuiet n.tokens && n.noted && e.ann.bare && e.noted
  | .pdef a n da _ e => a.bare && n.ann.bare && startsQuiet n.tokens && n.noted && da.bare && e.ann.bare && e.noted
end

/-- Not white space within a line. -/
def El.solid : El → Bool
  | .blank _ => false
  | _ => true

/-- `y` is what R and the parser read in the printed text `out`: it has the tokens, comments and line breaks of the
text in the same order; line breaks, and comments on lines of their own, belong to the token that follows; and it
is what R's grammar makes of the tokens. -/
structure RereadsNoted (out : List El) (y : Root) : Prop where
  text : (rawFile y.es.tokens y.eof).filter El.solid = out.filter El.solid
  strings : ∀ t ∈ y.es.tokens, (outTok t).text = t.text
  lines : ∀ t ∈ y.es.tokens, ∀ q ∈ t.trailing, q.kind ≠ .newline
  own : ∀ t ∈ (y.es.tokens ++ [y.eof]).tail, Verif.Parser.CommentsOnOwnLine t.leading
  last : y.eof.text = [] ∧ y.eof.trailing = []
  gram : y.es.gram = true
  fits : Fits (shapes .top .free y.es) (seen .fresh out)

end Verif.Format
