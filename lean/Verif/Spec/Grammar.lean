import Verif.Spec.Tokens
import Verif.Spec.Format

/-!
# R's grammar

Which syntax trees are R programs, and a reader that finds the tree of a sequence of tokens. Both
follow R's documentation (`?Syntax`) and the parts of R's `gram.y` that are quoted in
`binary_expression.rs:300-334`, and do not depend on air.

* `gram`: the tree is what R reads in its tokens: every token has a kind that fits its place,
  operators are nested as their precedence says, `=` assigns only where R allows it.
* `readFile`: R's parser, as a function of the tokens, each with whether a line break (or `;`) comes
  before it. That `readFile` finds every tree with `gram` is proved in Verif.Lemmas.Reader.

Deviation: `a == b == c`, which R rejects, is read with grouping to the left.
-/

namespace Verif.Format
open Verif.Syntax

/-! ## Kinds of tokens -/

/-- Expressions of a single token. -/
def atomKind : Kind → Option Kind
  | .ident => some .rIdentifier
  | .dots => some .rDots
  | .dotdoti => some .rDotDotI
  | .rIntegerLiteral => some .rIntegerValue
  | .rDoubleLiteral => some .rDoubleValue
  | .rComplexLiteral => some .rComplexValue
  | .nextKw => some .rNextExpression
  | .breakKw => some .rBreakExpression
  | .trueKw => some .rTrueExpression
  | .falseKw => some .rFalseExpression
  | .nullKw => some .rNullExpression
  | .infKw => some .rInfExpression
  | .nanKw => some .rNanExpression
  | .naLogicalKw | .naIntegerKw | .naDoubleKw | .naComplexKw | .naCharacterKw => some .rNaExpression
  | _ => none

/-- Binary operators: strength, and the least strength of operators in the right operand (the same
if the operator groups to the right). Bodies of functions, of loops and of `if` have strength 2. -/
def binOp : Kind → Option (Nat × Nat)
  | .wat => some (1, 2)
  | .equal => some (3, 3)
  | .assign | .superAssign | .walrus => some (4, 4)
  | .assignRight | .superAssignRight => some (5, 6)
  | .tilde => some (6, 7)
  | .orOp | .or2 => some (7, 8)
  | .andOp | .and2 => some (8, 9)
  | .lessThan | .lessThanOrEqualTo | .greaterThan | .greaterThanOrEqualTo | .equal2 | .notEqual =>
    some (10, 11)
  | .plus | .minus => some (11, 12)
  | .multiply | .divide => some (12, 13)
  | .special | .pipe => some (13, 14)
  | .colon => some (14, 15)
  | .exponentiate | .exponentiate2 => some (16, 16)
  | _ => none

/-- Unary operators: the least strength of operators in the operand. -/
def unOp : Kind → Option Nat
  | .wat => some 2
  | .tilde => some 7
  | .bang => some 10
  | .plus | .minus => some 16
  | _ => none

/-- The least strength of operators in a body. -/
def bodyOp : Nat := 3

/-- Operators whose operands may be assignments with `=` if the operation itself may. -/
def opEq : Kind → Bool
  | .equal | .wat => true
  | _ => false

/-- Brackets of calls and subscripts. -/
def openKind : CallKind → Kind
  | .call => .lParen
  | .subset => .lBrack
  | .subset2 => .lBrack2
def closeKind : CallKind → Kind
  | .call => .rParen
  | .subset => .rBrack
  | .subset2 => .rBrack2

/-- The call a bracket opens. -/
def callOf : Kind → Option CallKind
  | .lParen => some .call
  | .lBrack => some .subset
  | .lBrack2 => some .subset2
  | _ => none

def extractOp : Kind → Bool
  | .dollar | .atSign => true
  | _ => false

def namespaceOp : Kind → Bool
  | .colon2 | .colon3 => true
  | _ => false

/-! ## Trees -/

/-- A strength larger than that of any operator. -/
def closed : Nat := 100

/-- The least strength of the operators on the left edge of the tree. -/
def Expr.llow : Expr → Nat
  | .binary _ x op _ => min ((binOp op.kind).getD (0, 0)).1 x.llow
  | .sel _ .extract x _ _ => x.llow
  | .call _ _ f _ _ _ _ => f.llow
  | _ => closed

/-- An operator of this strength or more that follows would become part of the tree. -/
def Expr.rcap : Expr → Nat
  | .unary _ op e => min ((unOp op.kind).getD 0) e.rcap
  | .binary _ _ op y => min ((binOp op.kind).getD (0, 0)).2 y.rcap
  | .func _ _ _ _ _ _ b => min bodyOp b.rcap
  | .ite _ _ _ _ _ t => min bodyOp t.rcap
  | .itee _ _ _ _ _ _ _ _ e => min bodyOp e.rcap
  | .for_ _ _ _ _ _ _ _ b => min bodyOp b.rcap
  | .while_ _ _ _ _ _ b => min bodyOp b.rcap
  | .repeat_ _ _ b => min bodyOp b.rcap
  | _ => closed

/-- An `else` that follows would become part of the tree. -/
def Expr.openIf : Expr → Bool
  | .unary _ _ e => e.openIf
  | .binary _ _ _ y => y.openIf
  | .func _ _ _ _ _ _ b => b.openIf
  | .ite .. => true
  | .itee _ _ _ _ _ _ _ _ e => e.openIf
  | .for_ _ _ _ _ _ _ _ b => b.openIf
  | .while_ _ _ _ _ _ b => b.openIf
  | .repeat_ _ _ b => b.openIf
  | _ => false

/-- A string. -/
def strKinds (op : Token) (c : Option Token) (cl : Token) : Bool :=
  op.kind == .stringOpen && c.all (fun t => t.kind == .stringContent) && cl.kind == .stringClose

/-- Names after `$`, `@` and around `::`. -/
def Expr.selector : Expr → Bool
  | .atom _ k t => atomKind t.kind == some k && (k == .rIdentifier || k == .rDots || k == .rDotDotI)
  | .str _ op c cl => strKinds op c cl
  | _ => false

/-- Names of arguments. -/
def Expr.argName : Expr → Bool
  | .atom _ k t => atomKind t.kind == some k &&
    (k == .rIdentifier || k == .rDots || k == .rDotDotI || k == .rNullExpression)
  | .str _ op c cl => strKinds op c cl
  | _ => false

/-- Names of parameters. -/
def Expr.parName : Expr → Bool
  | .atom _ k t => atomKind t.kind == some k && (k == .rIdentifier || k == .rDots || k == .rDotDotI)
  | _ => false

/-- An argument without name and value. -/
def Arg.isHole : Arg → Bool
  | .hole _ => true
  | _ => false

mutual
/-- The tree is what R reads in its tokens; `eq`: an assignment with `=` is allowed here. -/
def Expr.gram (eq : Bool) : Expr → Bool
  | .atom _ k t => atomKind t.kind == some k
  | .str _ op c cl => strKinds op c cl
  | .paren _ l e r => l.kind == .lParen && e.gram true && r.kind == .rParen
  | .braced _ l es r => l.kind == .lCurly && es.gram && r.kind == .rCurly
  | .unary _ op e =>
    match unOp op.kind with
    | some rm => e.gram (op.kind == .wat) && decide (rm ≤ e.llow)
    | none => false
  | .binary _ x op y =>
    match binOp op.kind with
    | some (lv, rm) => x.gram (eq && opEq op.kind) && y.gram (eq && opEq op.kind) &&
      decide (lv < x.rcap) && decide (rm ≤ y.llow) && (op.kind != .equal || eq)
    | none => false
  | .sel _ .extract x op y =>
    x.gram false && decide (x.rcap = closed) && extractOp op.kind && y.selector
  | .sel _ .namespace x op y => x.selector && namespaceOp op.kind && y.selector
  | .call _ k f _ l items r =>
    f.gram false && decide (f.rcap = closed) && l.kind == openKind k && items.gramArgs true &&
      r.kind == closeKind k
  | .func _ kw _ l items r b =>
    (kw.kind == .functionKw || kw.kind == .backslash) && l.kind == .lParen && items.gramPars &&
      r.kind == .rParen && b.gram true && decide (bodyOp ≤ b.llow)
  | .ite _ kw l c r t =>
    kw.kind == .ifKw && l.kind == .lParen && c.gram false && r.kind == .rParen && t.gram true &&
      decide (bodyOp ≤ t.llow)
  | .itee _ kw l c r t _ el e =>
    kw.kind == .ifKw && l.kind == .lParen && c.gram false && r.kind == .rParen && t.gram true &&
      decide (bodyOp ≤ t.llow) && !t.openIf && el.kind == .elseKw && e.gram true &&
      decide (bodyOp ≤ e.llow)
  | .for_ _ kw l v i s r b =>
    kw.kind == .forKw && l.kind == .lParen && v.parName && i.kind == .inKw &&
      s.gram false && r.kind == .rParen && b.gram true && decide (bodyOp ≤ b.llow)
  | .while_ _ kw l c r b =>
    kw.kind == .whileKw && l.kind == .lParen && c.gram false && r.kind == .rParen && b.gram true &&
      decide (bodyOp ≤ b.llow)
  | .repeat_ _ kw b => kw.kind == .repeatKw && b.gram true && decide (bodyOp ≤ b.llow)
def Exprs.gram : Exprs → Bool
  | .nil => true
  | .cons e es => e.gram true && es.gram
/-- Arguments; `first`: all of the arguments, which are not a single hole. -/
def Items.gramArgs (first : Bool) : Items → Bool
  | .nil => first
  | .last x => x.gramArg && !(first && x.isHole)
  | .cons x s xs => x.gramArg && s.kind == .comma && xs.gramArgs false
def Arg.gramArg : Arg → Bool
  | .hole _ => true
  | .val _ e => e.gram false
  | .name _ _ n q => n.argName && q.kind == .equal
  | .named _ _ n q e => n.argName && q.kind == .equal && e.gram false
  | .pdef .. => false
def Items.gramPars : Items → Bool
  | .nil => true
  | .last x => x.gramPar
  | .cons x s xs => x.gramPar && s.kind == .comma && xs.gramPars1
def Items.gramPars1 : Items → Bool
  | .nil => false
  | .last x => x.gramPar
  | .cons x s xs => x.gramPar && s.kind == .comma && xs.gramPars1
def Arg.gramPar : Arg → Bool
  | .val _ e => e.parName
  | .pdef _ n _ q e => n.parName && q.kind == .equal && e.gram false
  | _ => false
end

/-! ## The reader -/

/-- Tokens with whether a line break comes before. -/
abbrev Seen := List (Bool × Tok)

/-- A token without trivia. -/
def Tok.plain (t : Tok) : Token := ⟨t.kind, [], t.text, []⟩

/-- The next token is of this kind. -/
def eat (k : Kind) : Seen → Option (Token × Seen)
  | [] => none
  | (_, t) :: ts => if t.kind = k then some (t.plain, ts) else none

/-- The next token, which is on the same line, is of this kind. -/
def eatHere (k : Kind) : Seen → Option (Token × Seen)
  | [] => none
  | (b, t) :: ts => if t.kind = k ∧ b = false then some (t.plain, ts) else none

/-- The rest of a string. -/
def readStr (op : Token) (ts : Seen) : Option (Expr × Seen) :=
  match eatHere .stringContent ts with
  | some (c, ts) => do
    let (cl, ts) ← eatHere .stringClose ts
    return (.str {} op (some c) cl, ts)
  | none => do
    let (cl, ts) ← eatHere .stringClose ts
    return (.str {} op none cl, ts)

/-- A name: a string or a token of one of the given kinds. -/
def readName (ks : List Kind) : Seen → Option (Expr × Seen)
  | [] => none
  | (_, t) :: ts =>
    if t.kind = .stringOpen then readStr t.plain ts
    else
      match atomKind t.kind with
      | some k => if k ∈ ks then some (.atom {} k t.plain, ts) else none
      | none => none

/-- A line break here ends the expression. -/
def ends (g : Region) (b : Bool) : Bool := b && g != .paren

/-- `::` and a name after `x`. -/
def readNamespace (g : Region) (x : Expr) : Seen → Option (Expr × Seen)
  | [] => some (x, [])
  | (b, t) :: ts =>
    if namespaceOp t.kind && x.selector && !ends g b then
      match ts with
      | [] => none
      | (b', u) :: ts' =>
        if ends g b' then none
        else do
          let (y, ts) ← readName [.rIdentifier, .rDots, .rDotDotI] ((b', u) :: ts')
          return (.sel {} .namespace x t.plain y, ts)
    else some (x, (b, t) :: ts)

/-- Name of a parameter or loop variable. -/
def readParName : Seen → Option (Expr × Seen)
  | [] => none
  | (_, t) :: ts =>
    match atomKind t.kind with
    | some k =>
      if k ∈ [Kind.rIdentifier, .rDots, .rDotDotI] then some (.atom {} k t.plain, ts) else none
    | none => none

/-- Name and `=` of an argument. -/
def readNameEq (ts : Seen) : Option (Expr × Token × Seen) := do
  let (n, ts) ← readName [.rIdentifier, .rDots, .rDotDotI, .rNullExpression] ts
  let (q, ts) ← eat .equal ts
  return (n, q, ts)

/-- The next token is of one of these kinds. -/
def nextIn (ks : List Kind) : Seen → Bool
  | [] => false
  | (_, t) :: _ => ks.contains t.kind

mutual
/-- An expression with operators of strength at least `p`. The first argument bounds the depth of the
recursion. -/
def readExpr : Nat → Region → Bool → Nat → Seen → Option (Expr × Seen)
  | 0, _, _, _, _ => none
  | n + 1, g, eq, p, ts => do
    let (x, ts) ← readPrefix n g ts
    readLoop n g eq p x ts
/-- What may follow `x`: operators, calls, subscripts. -/
def readLoop : Nat → Region → Bool → Nat → Expr → Seen → Option (Expr × Seen)
  | 0, _, _, _, _, _ => none
  | _ + 1, _, _, _, x, [] => some (x, [])
  | n + 1, g, eq, p, x, (b, t) :: ts =>
    if ends g b then some (x, (b, t) :: ts)
    else if extractOp t.kind then do
      let (y, ts) ← readName [.rIdentifier, .rDots, .rDotDotI] ts
      readLoop n g eq p (.sel {} .extract x t.plain y) ts
    else
      match callOf t.kind with
      | some k => do
        let (items, ts) ← readArgs n true (closeKind k) ts
        let (r, ts) ← eat (closeKind k) ts
        readLoop n g eq p (.call {} k x {} t.plain items r) ts
      | none =>
        match binOp t.kind with
        | some (lv, rm) =>
          if p ≤ lv ∧ (t.kind = .equal → eq = true) then do
            let (y, ts) ← readExpr n g (eq && opEq t.kind) rm ts
            readLoop n g eq p (.binary {} x t.plain y) ts
          else some (x, (b, t) :: ts)
        | none => some (x, (b, t) :: ts)
/-- The start of an expression. -/
def readPrefix : Nat → Region → Seen → Option (Expr × Seen)
  | 0, _, _ => none
  | _ + 1, _, [] => none
  | n + 1, g, (_, t) :: ts =>
    match t.kind with
    | .lParen => do
      let (e, ts) ← readExpr n .paren true 0 ts
      let (r, ts) ← eat .rParen ts
      return (.paren {} t.plain e r, ts)
    | .lCurly => do
      let (es, ts) ← readStmts n .brace ts
      let (r, ts) ← eat .rCurly ts
      return (.braced {} t.plain es r, ts)
    | .functionKw | .backslash => do
      let (l, ts) ← eat .lParen ts
      let (items, ts) ← readPars n true ts
      let (r, ts) ← eat .rParen ts
      let (body, ts) ← readExpr n g true bodyOp ts
      return (.func {} t.plain {} l items r body, ts)
    | .ifKw => do
      let (l, ts) ← eat .lParen ts
      let (c, ts) ← readExpr n .paren false 0 ts
      let (r, ts) ← eat .rParen ts
      let (x, ts) ← readExpr n g true bodyOp ts
      match ts with
      | [] => return (.ite {} t.plain l c r x, [])
      | (b, u) :: us =>
        if u.kind = .elseKw ∧ (g = .top → b = false) then do
          let (y, ts) ← readExpr n g true bodyOp us
          return (.itee {} t.plain l c r x {} u.plain y, ts)
        else return (.ite {} t.plain l c r x, (b, u) :: us)
    | .forKw => do
      let (l, ts) ← eat .lParen ts
      let (v, ts) ← readParName ts
      let (i, ts) ← eat .inKw ts
      let (s, ts) ← readExpr n .paren false 0 ts
      let (r, ts) ← eat .rParen ts
      let (body, ts) ← readExpr n g true bodyOp ts
      return (.for_ {} t.plain l v i s r body, ts)
    | .whileKw => do
      let (l, ts) ← eat .lParen ts
      let (c, ts) ← readExpr n .paren false 0 ts
      let (r, ts) ← eat .rParen ts
      let (body, ts) ← readExpr n g true bodyOp ts
      return (.while_ {} t.plain l c r body, ts)
    | .repeatKw => do
      let (body, ts) ← readExpr n g true bodyOp ts
      return (.repeat_ {} t.plain body, ts)
    | .stringOpen => do
      let (x, ts) ← readStr t.plain ts
      readNamespace g x ts
    | _ =>
      match unOp t.kind with
      | some rm => do
        let (e, ts) ← readExpr n g (t.kind == .wat) rm ts
        return (.unary {} t.plain e, ts)
      | none =>
        match atomKind t.kind with
        | some k => readNamespace g (.atom {} k t.plain) ts
        | none => none
/-- Statements up to the end of the file or a closing brace. -/
def readStmts : Nat → Region → Seen → Option (Exprs × Seen)
  | 0, _, _ => none
  | _ + 1, _, [] => some (.nil, [])
  | n + 1, g, (b, t) :: ts =>
    if t.kind = .rCurly then some (.nil, (b, t) :: ts)
    else do
      let (e, ts) ← readExpr n g true 0 ((b, t) :: ts)
      match ts with
      | [] => return (.cons e .nil, [])
      | (b', u) :: us =>
        if u.kind = .rCurly ∨ b' = true then do
          let (es, ts) ← readStmts n g ((b', u) :: us)
          return (.cons e es, ts)
        else none
/-- Arguments up to the closing bracket; `first`: none have been read. -/
def readArgs : Nat → Bool → Kind → Seen → Option (Items × Seen)
  | 0, _, _, _ => none
  | n + 1, first, close, ts =>
    if first && nextIn [close] ts then some (.nil, ts)
    else do
      let (x, ts) ← readArg n close ts
      match ts with
      | [] => none
      | (b, t) :: us =>
        if t.kind = .comma then do
          let (xs, ts) ← readArgs n false close us
          return (.cons x t.plain xs, ts)
        else return (.last x, (b, t) :: us)
def readArg : Nat → Kind → Seen → Option (Arg × Seen)
  | 0, _, _ => none
  | n + 1, close, ts =>
    if nextIn [.comma, close] ts then some (.hole {}, ts)
    else
      match readNameEq ts with
      | some (nm, q, ts) =>
        if nextIn [.comma, close] ts then some (.name {} {} nm q, ts)
        else do
          let (e, ts) ← readExpr n .paren false 0 ts
          return (.named {} {} nm q e, ts)
      | none => do
        let (e, ts) ← readExpr n .paren false 0 ts
        return (.val {} e, ts)
/-- Parameters up to the closing parenthesis. -/
def readPars : Nat → Bool → Seen → Option (Items × Seen)
  | 0, _, _ => none
  | n + 1, first, ts =>
    if first && nextIn [.rParen] ts then some (.nil, ts)
    else do
      let (nm, ts) ← readParName ts
      let (x, ts) ←
        (match eat .equal ts with
        | some (q, ts) => do
          let (e, ts) ← readExpr n .paren false 0 ts
          return (Arg.pdef {} nm {} q e, ts)
        | none => return (Arg.val {} nm, ts))
      match ts with
      | [] => none
      | (b, t) :: us =>
        if t.kind = .comma then do
          let (xs, ts) ← readPars n false us
          return (.cons x t.plain xs, ts)
        else return (.last x, (b, t) :: us)
end

/-- A file. -/
def readFile (ts : Seen) : Option Exprs :=
  match readStmts (3 * ts.length + 3) .top ts with
  | some (es, []) => some es
  | _ => none

/-! ## Trees without trivia -/

/-- Without trivia. -/
def bareTok (t : Token) : Token := (outTok t).plain

mutual
/-- Without comments and trivia. -/
def Expr.bare : Expr → Expr
  | .atom _ k t => .atom {} k (bareTok t)
  | .str _ o c l => .str {} (bareTok o) (c.map bareTok) (bareTok l)
  | .paren _ l e r => .paren {} (bareTok l) e.bare (bareTok r)
  | .braced _ l es r => .braced {} (bareTok l) es.bare (bareTok r)
  | .unary _ o e => .unary {} (bareTok o) e.bare
  | .binary _ x o y => .binary {} x.bare (bareTok o) y.bare
  | .sel _ k x o y => .sel {} k x.bare (bareTok o) y.bare
  | .call _ k f _ l items r => .call {} k f.bare {} (bareTok l) items.bare (bareTok r)
  | .func _ kw _ l items r b => .func {} (bareTok kw) {} (bareTok l) items.bare (bareTok r) b.bare
  | .ite _ kw l c r t => .ite {} (bareTok kw) (bareTok l) c.bare (bareTok r) t.bare
  | .itee _ kw l c r t _ el e =>
    .itee {} (bareTok kw) (bareTok l) c.bare (bareTok r) t.bare {} (bareTok el) e.bare
  | .for_ _ kw l v i s r b =>
    .for_ {} (bareTok kw) (bareTok l) v.bare (bareTok i) s.bare (bareTok r) b.bare
  | .while_ _ kw l c r b => .while_ {} (bareTok kw) (bareTok l) c.bare (bareTok r) b.bare
  | .repeat_ _ kw b => .repeat_ {} (bareTok kw) b.bare
def Exprs.bare : Exprs → Exprs
  | .nil => .nil
  | .cons e es => .cons e.bare es.bare
def Items.bare : Items → Items
  | .nil => .nil
  | .last x => .last x.bare
  | .cons x s xs => .cons x.bare (bareTok s) xs.bare
def Arg.bare : Arg → Arg
  | .hole _ => .hole {}
  | .val _ e => .val {} e.bare
  | .name _ _ n q => .name {} {} n.bare (bareTok q)
  | .named _ _ n q e => .named {} {} n.bare (bareTok q) e.bare
  | .pdef _ n _ q e => .pdef {} n.bare {} (bareTok q) e.bare
end

end Verif.Format
