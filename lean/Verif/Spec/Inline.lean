import Verif.Spec.Layout

/-!
# Expressions on one line

What the style guide says about spaces (`docs/formatter.qmd`: air follows the tidyverse style guide): one
space around most operators, none around `^`, `**`, `:`, `?`, `$`, `@`, `::` and after unary operators; one
space after commas, none before; none inside of parentheses and brackets; one space after `if`, `for` and
`while`, around `in` and `else`, and before a body; none after `function`.
-/

namespace Verif.Format
open Verif.Syntax

/-- One piece of text after the other; not on one line if one of them is not. -/
def inLine : List (Option (List El)) → Option (List El)
  | [] => some []
  | none :: _ => none
  | some x :: xs => (inLine xs).map (x ++ ·)

/-- The token. -/
def oneTok (t : Token) : Option (List El) := some [.tok (outTok t)]

/-- A space. -/
def blank : Option (List El) := some [.blank [32]]

/-- Operators without spaces around them. -/
def stuck : Kind → Bool
  | .wat | .exponentiate | .exponentiate2 | .colon => true
  | _ => false

/-- `=` and `<-` according to the setting (see `Operator`). -/
def operator (o : Opts) (p : Place) (op : Token) : Token :=
  if op.kind = .equal ∧ o.style = .arrow then ⟨.assign, [], [60, 45], []⟩
  else if op.kind = .assign ∧ o.style = .equal ∧ p.assign = true then ⟨.equal, [], [61], []⟩
  else op

/-- What is between an entry of a list and the one before: nothing in front of the first one and between
those that are left out at the beginning, otherwise a space. `omitted`: there may be such, and all before
are. -/
def between (first omitted : Bool) (x : Arg) : Option (List El) :=
  if first || (omitted && x.isHole) then some [] else blank

/-- Names, numbers, `NULL`, …, and strings. -/
def Expr.isWord : Expr → Bool
  | .atom .. | .str .. => true
  | _ => false

mutual
/-- The expression on one line; `none`: it needs several lines. -/
def Expr.inline (o : Opts) (p : Place) : Expr → Option (List El)
  | .atom _ _ t => oneTok t
  | .str _ op none cl => inLine [oneTok op, oneTok cl]
  | .str _ op (some c) cl => inLine [oneTok op, oneTok c, oneTok cl]
  | .paren _ l e r => inLine [oneTok l, e.inline o .body, oneTok r]
  | .braced _ l .nil r => inLine [oneTok l, oneTok r]
  | .braced _ l (.cons (.braced _ il (.cons (.atom _ .rIdentifier t) .nil) ir) .nil) r =>
    inLine [oneTok l, oneTok il, blank, oneTok t, blank, oneTok ir, oneTok r]
  | .braced .. => none
  | .unary _ op e =>
    if op.kind = .tilde ∧ e.isWord = false then
      inLine [oneTok op, blank, e.inline o {}]
    else inLine [oneTok op, e.inline o { assign := op.kind == .wat }]
  | .binary _ x op y =>
    if stuck op.kind then
      inLine [x.inline o (p.operand op.kind), oneTok op, y.inline o (p.operand op.kind)]
    else
      inLine [x.inline o (p.operand op.kind), blank, oneTok (operator o p op), blank,
        y.inline o (p.operand op.kind)]
  | .sel _ _ x op y => inLine [x.inline o {}, oneTok op, y.inline o {}]
  | .call _ _ f _ l items r => inLine [f.inline o {}, oneTok l, items.inline o true true, oneTok r]
  | .func _ kw _ l items r b =>
    inLine [oneTok kw, oneTok l, items.inline o true false, oneTok r, blank, b.inline o .body]
  | .ite _ kw l c r t =>
    inLine [oneTok kw, blank, oneTok l, c.inline o {}, oneTok r, blank, t.inline o .body]
  | .itee _ kw l c r t _ el e =>
    inLine [oneTok kw, blank, oneTok l, c.inline o {}, oneTok r, blank, t.inline o .body, blank, oneTok el, blank,
      e.inline o .body]
  | .for_ _ kw l v i s r b =>
    if b.isBraced then
      inLine [oneTok kw, blank, oneTok l, v.inline o {}, blank, oneTok i, blank, s.inline o {}, oneTok r, blank,
        b.inline o .body]
    else none
  | .while_ _ kw l c r b =>
    if b.isBraced then inLine [oneTok kw, blank, oneTok l, c.inline o {}, oneTok r, blank, b.inline o .body]
    else none
  | .repeat_ _ kw b => if b.isBraced then inLine [oneTok kw, blank, b.inline o .body] else none
/-- Arguments (`omitted`) or parameters. -/
def Items.inline (o : Opts) (first omitted : Bool) : Items → Option (List El)
  | .nil => some []
  | .last x => inLine [between first omitted x, x.inline o]
  | .cons x s xs =>
    inLine [between first omitted x, x.inline o, oneTok s, xs.inline o false (omitted && x.isHole)]
def Arg.inline (o : Opts) : Arg → Option (List El)
  | .hole _ => some []
  | .val _ e => e.inline o {}
  | .name _ _ n q => inLine [n.inline o {}, blank, oneTok q, blank]
  | .named _ _ n q e => inLine [n.inline o {}, blank, oneTok q, blank, e.inline o {}]
  | .pdef _ n _ q e => inLine [n.inline o {}, blank, oneTok q, blank, e.inline o {}]
end

end Verif.Format
