import Verif.Model.Doc
import Verif.Model.Directive
import Verif.Model.Settings
import Verif.Model.LineEnding

/-!
# The formatting rules (`crates/air_r_formatter/src`)

`fmt` produces the document the rules write for an expression. What the Rust code finds out by
looking at parents (`node.parent()`, `ancestors()`) and what it passes down through options is
carried in the context `Cx`.

Left out: `expand_parent` elements and `will_break` tests (call_arguments.rs:291-310,453-462,
function_definition.rs:75-79) – they only restrict the layouts, see Verif.Model.Doc; memoisation
and token tracking, which have no effect on the output.
-/

namespace Verif.Format
open Verif.Syntax Verif.Directive

/-- `RFormatOptions` (context.rs) as far as the rules look at it; `directive` and `generated` are
`parse_comment_directive` and `parse_special_skip_file` on the text of a comment (modelled in
Verif.Model.Directive), `skip` and `table` say whether a function name is in the settings.
(crates/air_r_formatter/src/context.rs:70-100) -/
structure Opts where
  style : Settings.AssignmentStyle
  persistent : Bool
  skip : List Byte → Bool
  table : List Byte → Bool
  directive : List Byte → Option Directive
  generated : List Byte → Bool

/-- What the rules know about the position of an expression.
* `dir`: the parent is an expression list, an argument list or a binary expression
  (`can_have_directive`, comments_ext.rs:58-73)
* `effect`: `position() == Effect` (if_statement.rs:389-416)
* `eq`: `can_normalize_to_equal` (binary_expression.rs:336-441) for a node at this position
* `inArg`: an ancestor is an `RArgument` (braced_expressions.rs:205-208)
* `chain`: left operand of a chain of binary operators (binary_expression.rs:726-741)
* `aligned`: `ChainAlignment::LeftAligned`
* `table`: the option `table` of `FormatRCall`
* `braces`: the option `braced_expressions` of `FormatRIfStatement`, `some true`: `Force`
* `flatParams`: the option `call_argument_layout` of `FormatRFunctionDefinition` -/
structure Cx where
  dir : Bool := false
  effect : Bool := false
  eq : Bool := false
  inArg : Bool := false
  chain : Bool := false
  aligned : Bool := false
  table : Option Bool := none
  braces : Option Bool := none
  flatParams : Bool := false
  deriving DecidableEq, Repr

/-! ## Building blocks of biome_formatter -/

/-- The text printed for a token: string contents with normalised line endings
(string_content.rs:56-67), everything else as it is. -/
def outTok (t : Token) : Tok :=
  ⟨t.kind, if t.kind = .stringContent then
    (LineEnding.normalizeRef 13 10 t.text).getD t.text else t.text⟩

/-- `token.format()`. (crates/air_r_formatter/src/lib.rs:274-290) -/
def tokDoc (t : Token) : Doc := .tok (outTok t)

/-- `text("{")`, `text("}")`. (crates/air_r_formatter/src/r/auxiliary/if_statement.rs:315-330,
crates/air_r_formatter/src/r/auxiliary/function_definition.rs:128-140,
crates/air_r_formatter/src/loop_body.rs:17-33) -/
def lBrace : Tok := ⟨.lCurly, [123]⟩
/-- `text("}")` (crates/air_r_formatter/src/r/auxiliary/if_statement.rs:315-330,
crates/air_r_formatter/src/r/auxiliary/function_definition.rs:128-140,
crates/air_r_formatter/src/loop_body.rs:17-33). -/
def rBrace : Tok := ⟨.rCurly, [125]⟩

/-- `maybe_space`. (external; used in crates/air_r_formatter/src/r/auxiliary/unary_expression.rs:33,
crates/air_r_formatter/src/r/auxiliary/call_arguments.rs:385, 427, 1047) -/
def maybeSpace (b : Bool) : Doc := if b then .space else .nil

/-- `soft_block_indent`, `block_indent`, `soft_space_or_block_indent`. (external; used in
crates/air_r_formatter/src/r/auxiliary/if_statement.rs:77, 322,
crates/air_r_formatter/src/r/auxiliary/call_arguments.rs:1039,
crates/air_r_formatter/src/r/auxiliary/parameters.rs:44) -/
def softBlock (d : Doc) : Doc := .indent (.line .soft ⊹ d) ⊹ .line .soft
/-- `block_indent` (external; crates/air_r_formatter/src/r/auxiliary/if_statement.rs:315-330,
crates/air_r_formatter/src/r/auxiliary/braced_expressions.rs:16-78). -/
def hardBlock (d : Doc) : Doc := .indent (.line .hard ⊹ d) ⊹ .line .hard
/-- `soft_space_or_block_indent`, e.g. crates/air_r_formatter/src/r/auxiliary/braced_expressions.rs:258-282
(external). -/
def spaceBlock (d : Doc) : Doc := .indent (.line .softOrSpace ⊹ d) ⊹ .line .softOrSpace

/-- `format_leading_comments`. (external; crates/air_r_formatter/src/lib.rs:235-237, with
crates/air_r_formatter/src/comments.rs:35-62 for one comment) -/
def leadingDoc : List Comment → Doc
  | [] => .nil
  | c :: cs => .comment c.text ⊹ .line (if c.after ≤ 1 then .hard else .empty) ⊹ leadingDoc cs

/-- `format_trailing_comments`; `n`: line breaks before the comments so far. (external;
crates/air_r_formatter/src/lib.rs:256-258) -/
def trailingDoc (n : Nat) : List Comment → Doc
  | [] => .nil
  | c :: cs =>
    .suffix (if n + c.before = 0 then none else some (decide (1 < c.before))) c.text ⊹
      trailingDoc (n + c.before) cs

/-- The comments of `format_dangling_comments`, one per line. (external;
crates/air_r_formatter/src/lib.rs:246-250) -/
def danglingComments : List Comment → Doc
  | [] => .nil
  | [c] => .comment c.text
  | c :: cs => .comment c.text ⊹ .line .hard ⊹ danglingComments cs

/-- `format_dangling_comments(..).with_soft_block_indent()`; the comments force the group to be
expanded. (external; crates/air_r_formatter/src/lib.rs:246-250,
crates/air_r_formatter/src/r/auxiliary/call_arguments.rs:498,
crates/air_r_formatter/src/r/auxiliary/parameters.rs:34) -/
def danglingSoft (cs : List Comment) : Doc :=
  if cs.isEmpty then .nil else .group true (softBlock (danglingComments cs))

/-- `format_dangling_comments(..).with_block_indent()`. (external;
crates/air_r_formatter/src/r/auxiliary/braced_expressions.rs:48) -/
def danglingHard (cs : List Comment) : Doc :=
  if cs.isEmpty then .nil else hardBlock (danglingComments cs)

/-- Trivia in source text, as printer instructions. (auxiliary for `verbatimDoc`,
crates/air_r_formatter/src/lib.rs:227-229) -/
def pieceEl (p : Piece) : El :=
  match p.kind with
  | .newline => .rnl
  | .whitespace => .blank p.text
  | .comment => .comment p.text

/-- Source text of a node without the trivia around it (`text_trimmed`), from its tokens.
(crates/air_r_formatter/src/lib.rs:227-229; external) -/
def rawEls : List Token → List El
  | [] => []
  | [t] => [.tok (outTok t)]
  | t :: u :: ts =>
    .tok (outTok t) :: (t.trailing.map pieceEl ++ u.leading.map pieceEl ++ rawEls (u :: ts))

/-- `format_suppressed_node` / `format_verbatim_node`: comments outside of the trimmed range, and
the source text. (crates/air_r_formatter/src/lib.rs:227-229; external) -/
def verbatimDoc (a : Ann) (ts : List Token) : Doc :=
  leadingDoc (a.leading.takeWhile (fun c => !c.within)) ⊹ .verb (rawEls ts) ⊹
    trailingDoc 0 (a.trailing.dropWhile Comment.within)

/-! ## Rules -/

/-- `FormatNodeRule::fmt` (lib.rs:202-210) around the fields of a node that is not suppressed. -/
def nodeDoc (a : Ann) (fields dangling : Doc) : Doc :=
  leadingDoc a.leading ⊹ fields ⊹ dangling ⊹ trailingDoc 0 a.trailing

/-- `has_skip_directive`, `has_table_directive` (comments_ext.rs:32-47). -/
def hasDirective (o : Opts) (dir : Bool) (a : Ann) (d : Directive) : Bool :=
  dir && a.leading.any (fun c => o.directive c.text == some d)

/-- The function name that `in_setting` looks up (comments_ext.rs:95-111). -/
def calleeName : Expr → Option (List Byte)
  | .atom _ .rIdentifier t => some t.text
  | .sel _ .namespace _ _ (.atom _ .rIdentifier t) => some t.text
  | _ => none

/-- `in_skip_setting` / `in_table_setting`. (crates/air_r_formatter/src/comments_ext.rs:76-93) -/
def inSetting (p : List Byte → Bool) (f : Expr) : Bool :=
  match calleeName f with
  | some n => p n
  | none => false

/-- `is_suppressed` of the rule for the expression (lib.rs:215-220, call.rs:33-37). -/
def suppressed (o : Opts) (cx : Cx) : Expr → Bool
  | .call a .call f .. => hasDirective o cx.dir a .skip || inSetting o.skip f
  | e => hasDirective o cx.dir e.ann .skip

/-- `is_chainable_binary_operator` (binary_expression.rs:849-919). -/
def isChainOp : Kind → Bool
  | .pipe | .special | .orOp | .or2 | .andOp | .and2 | .plus | .minus | .multiply | .divide => true
  | _ => false

/-- Operators printed without spaces (binary_expression.rs:88-92). -/
def isSticky : Kind → Bool
  | .wat | .exponentiate | .exponentiate2 | .colon => true
  | _ => false

/-- Operators of `fmt_binary_assignment` (binary_expression.rs:94-102). -/
def isAssignOp : Kind → Bool
  | .tilde | .equal | .walrus | .assign | .assignRight | .superAssign | .superAssignRight => true
  | _ => false

/-- Is the expression a chainable binary expression (binary_expression.rs:833-847)? -/
def Expr.isChain : Expr → Bool
  | .binary _ _ op _ => isChainOp op.kind
  | _ => false

/-- Right operand of the innermost operator of a chain (`tail.first()` after `reverse`,
binary_expression.rs:743,927). -/
def firstRight : Expr → Expr → Expr
  | .binary _ x op y, r => if isChainOp op.kind then firstRight x y else r
  | _, r => r

/-- `binary_assignment_has_persistent_line_break` (binary_expression.rs:453-476). -/
def assignBreak (o : Opts) (op : Kind) (r : Expr) : Bool :=
  o.persistent &&
  (match op with | .equal | .assign | .superAssign | .tilde => true | _ => false) &&
  leadingNewline r.tokens

/-- `fmt_left_assignment_operator` (binary_expression.rs:254-313). -/
def assignTok (o : Opts) (cx : Cx) (op : Token) : Tok :=
  match op.kind, o.style with
  | .equal, .arrow => ⟨.assign, [60, 45]⟩
  | .assign, .equal => if cx.eq then ⟨.equal, [61]⟩ else outTok op
  | _, _ => outTok op

/-- Context of an operand (`can_normalize_to_equal` looks through `<-`, `=` and `?`).
(crates/air_r_formatter/src/r/auxiliary/binary_expression.rs:336-441) -/
def opCx (cx : Cx) (op : Kind) : Cx :=
  { dir := true, inArg := cx.inArg,
    eq := (match op with | .assign | .equal | .wat => true | _ => false) && cx.eq }

/-- Context of the body of a function, branch or loop, of a parenthesised expression, and of the
argument of the unary operator `?`. (crates/air_r_formatter/src/r/auxiliary/binary_expression.rs:336-441) -/
def bodyCx (cx : Cx) : Cx := { eq := true, inArg := cx.inArg }

/-- Context of everything else: the parent looks at nothing.
(crates/air_r_formatter/src/r/auxiliary/binary_expression.rs:336-441) -/
def plainCx (cx : Cx) : Cx := { inArg := cx.inArg }

/-- `is_terminal` (unary_expression.rs:54-82). -/
def Expr.isTerminal : Expr → Bool
  | .atom .. | .str .. => true
  | _ => false

/-- `Comments::has_comments`. (external; used in crates/air_r_formatter/src/r/auxiliary/unary_expression.rs:21,
crates/air_r_formatter/src/r/auxiliary/call_arguments.rs:538, 1129, 1140) -/
def Ann.any (a : Ann) : Bool := !(a.leading.isEmpty && a.dangling.isEmpty && a.trailing.isEmpty)

/-- `compute_braced_expressions` (if_statement.rs:193-237). -/
def forceBraces (effect : Bool) (t : Expr) (els : Option (Token × Expr)) : Bool :=
  effect || leadingNewline t.tokens || t.isBraced || t.isIf ||
  (match els with
   | none => false
   | some (el, e) => leadingNewlineToken el || leadingNewline e.tokens || e.isBraced || e.isIf)

/-- Braces that are always written, or only if the enclosing group breaks
(if_statement.rs:310-325, function_definition.rs:121-139, loop_body.rs:23-30). -/
def braceDoc (force : Bool) (d : Doc) : Doc :=
  if force then .tok lBrace ⊹ hardBlock d ⊹ .tok rBrace
  else .ifBreaks (.tok lBrace) ⊹ softBlock d ⊹ .ifBreaks (.tok rBrace)

/-- `FormatFunctionBody`, `FormatIfBody`, `FormatLoopBody` on an already formatted body;
`as`: written as it is (already braced, or `else if`).
(crates/air_r_formatter/src/r/auxiliary/function_definition.rs:113-143,
crates/air_r_formatter/src/r/auxiliary/if_statement.rs:284-335, crates/air_r_formatter/src/loop_body.rs:17-33) -/
def bodyDoc (as force : Bool) (d : Doc) : Doc := if as then d else braceDoc force d

/-- Between two statements (joiner_ext.rs:46-77); `double`: at top level. -/
def stmtSep (double : Bool) (n : Nat) : Doc :=
  if double then
    if n > 2 then .line .empty ⊹ .rnl
    else if n = 2 then .line .empty
    else .line .hard
  else if n > 1 then .line .empty else .line .hard

/-- Curly-curly (braced_expressions.rs:203-274): comments, tokens and symbol of the inner braces. -/
def curlyCurly (inArg : Bool) : Exprs → Option (Ann × Token × Ann × Token × Token)
  | .cons (.braced ia il (.cons (.atom ea .rIdentifier t) .nil) ir) .nil =>
    if inArg then some (ia, il, ea, t, ir) else none
  | _ => none

/-- `braced_expressions_is_groupable` (call_arguments.rs:1277-1286). -/
def groupableBraces (a : Ann) (inArg : Bool) : Exprs → Bool
  | .nil => !a.dangling.isEmpty
  | es => (curlyCurly inArg es).isNone

/-- `argument_is_groupable` (call_arguments.rs:1153-1275); arguments always have an ancestor
`RArgument`. -/
def groupable : Expr → Bool
  | .braced a _ es _ => groupableBraces a true es
  | .func _ _ _ _ _ _ (.braced a _ es _) => groupableBraces a true es
  | .func .. => true
  | _ => false

/-- Value of an argument. (crates/air_r_syntax/src/generated/nodes.rs:26-64) -/
def Arg.value : Arg → Option Expr
  | .val _ e | .named _ _ _ _ e | .pdef _ _ _ _ e => some e
  | _ => none

/-- Is the argument named? (crates/air_r_syntax/src/generated/nodes.rs:26-64) -/
def Arg.isNamed : Arg → Bool
  | .name .. | .named .. => true
  | _ => false

/-- Comments of the name clause. (crates/air_r_formatter/src/r/auxiliary/call_arguments.rs:1140) -/
def Arg.nameAnn : Arg → Ann
  | .name _ na .. | .named _ na .. => na
  | _ => {}

/-- Arguments in order. (crates/air_r_syntax/src/generated/nodes.rs:4705-4708) -/
def Items.args : Items → List Arg
  | .nil => []
  | .last x => [x]
  | .cons x _ xs => x :: xs.args

/-- `should_group_last_argument` (call_arguments.rs:1122-1150). -/
def groupLast (items : Items) : Bool :=
  match items.args.getLast? with
  | none => false
  | some x =>
    !x.ann.any && !x.nameAnn.any &&
    (match x.value with | some e => groupable e | none => false)

/-- `is_titled_block_call` (air_r_syntax/src/call_ext.rs:33-63). -/
def isTestCall (items : Items) : Bool :=
  match items.args with
  | [x, y] =>
    (match x.value with | some (.str ..) => true | _ => false) &&
    (match y.value with | some (.braced ..) => true | _ => false)
  | _ => false

/-- `ArgKind::parse` (call_arguments_table.rs:369-423): is the argument a number? -/
def Arg.isNumeric (x : Arg) : Bool :=
  match x.value with
  | some (.atom _ k _) => k == .rIntegerValue || k == .rDoubleValue
  | some (.unary _ op (.atom _ k _)) =>
    (op.kind == .plus || op.kind == .minus) && (k == .rIntegerValue || k == .rDoubleValue)
  | _ => false

/-- A formatted entry of an argument list.
* `doc`: the node; `grouped`: the node as grouped last argument; `fields`: without its comments
* `sep`: the separator after it, if any (crates/air_r_formatter/src/r/auxiliary/call_arguments.rs:700-900) -/
structure ItemDoc where
  arg : Arg
  sep : Option Token
  doc : Doc
  grouped : Doc
  fields : Doc

/-- The separator. (crates/air_r_formatter/src/r/auxiliary/call_arguments.rs:753-761, 850-875) -/
def ItemDoc.sepDoc (x : ItemDoc) : Doc :=
  match x.sep with
  | some s => tokDoc s
  | none => .nil

/-- The entry followed by its separator (call_arguments.rs:753-761,850-875). -/
def ItemDoc.full (x : ItemDoc) : Doc := x.doc ⊹ x.sepDoc

/-- `leading_lines` of an argument (call_arguments.rs:804-814). -/
def ItemDoc.lines (x : ItemDoc) : Nat := linesBefore x.arg.tokens

/-- `get_lines_before_token` of the separator.
(crates/air_r_formatter/src/r/auxiliary/call_arguments.rs:725-744) -/
def ItemDoc.sepLines (x : ItemDoc) : Nat :=
  match x.sep with
  | some s => linesBeforeToken s
  | none => 0

/-- A leading hole: no name, no value, no comments (call_arguments.rs:534-541). -/
def ItemDoc.isHole (x : ItemDoc) : Bool :=
  match x.arg with
  | .hole a => !a.any
  | _ => false

/-- Documents one after the other. (`write!` with several arguments, e.g.
crates/air_r_formatter/src/r/auxiliary/call_arguments.rs:370-390) -/
def catAll : List Doc → Doc
  | [] => .nil
  | d :: ds => d ⊹ catAll ds

/-- Each argument but the first is preceded by a line break or an empty line
(call_arguments.rs:1019-1034). -/
def argsTail : List ItemDoc → Doc
  | [] => .nil
  | x :: xs => .line (if x.lines ≤ 1 then .softOrSpace else .empty) ⊹ x.full ⊹ argsTail xs

/-- The entries of an argument list, separated by lines
(crates/air_r_formatter/src/r/auxiliary/call_arguments.rs:1018-1040). -/
def argsJoin : List ItemDoc → Doc
  | [] => .nil
  | x :: xs => x.full ⊹ argsTail xs

/-- `is_hugging_call` (call_arguments.rs:1056-1091). -/
def hugging (r : Token) : List ItemDoc → Bool
  | [x] =>
    match x.arg with
    | .val _ e =>
      !(commentsDirect e.tokens || hasComment r.leading) &&
      (match e with | .call .. => true | _ => false)
    | _ => false
  | _ => false

/-- `FormatAllArgsBrokenOut` (call_arguments.rs:1017-1054). -/
def brokenOut (expand : Bool) (l : Token) (holes args : List ItemDoc) (r : Token) : Doc :=
  .group expand
    (tokDoc l ⊹ catAll (holes.map ItemDoc.full) ⊹ maybeSpace (!holes.isEmpty && !args.isEmpty) ⊹
      (if args.isEmpty then .nil
       else if !expand && hugging r args then argsJoin args
       else softBlock (argsJoin args)) ⊹ tokDoc r)

/-- The arguments of the two grouped variants: separated by soft line breaks, the last one as
grouped argument, in an expanded group if `ex` (call_arguments.rs:375-451). -/
def groupedJoin (ex single : Bool) : List ItemDoc → Doc
  | [] => .nil
  | [x] =>
    let d := (if single then x.doc else x.grouped) ⊹ x.sepDoc
    if ex then .group true d else d
  | x :: y :: xs => x.full ⊹ .line .softOrSpace ⊹ groupedJoin ex single (y :: xs)

/-- `write_grouped_arguments` (call_arguments.rs:269-474). The printer prints all variants of a
best-fitting element but the last one in flat mode, whatever is around it; hence the groups. -/
def groupedArgs (l : Token) (holes args : List ItemDoc) (r : Token) : Doc :=
  let pre := tokDoc l ⊹ catAll (holes.map ItemDoc.full) ⊹
    maybeSpace (!holes.isEmpty && !args.isEmpty)
  let single := args.length == 1
  .alt (.group false (pre ⊹ groupedJoin false single args ⊹ tokDoc r))
    (.alt (.group false (pre ⊹ groupedJoin true single args ⊹ tokDoc r))
      (brokenOut true l holes args r))

/-- `has_persistent_line_break` of arguments (call_arguments.rs:678-703). -/
def argsBreak (o : Opts) (holes args : List ItemDoc) : Bool :=
  o.persistent &&
  (holes.any (fun h => h.sepLines > 0) ||
   (match args with | x :: _ => x.lines > 0 | [] => false))

/-- The two arguments of a titled block, joined by a space (call_arguments.rs:511-523). -/
def testJoin : List ItemDoc → Doc
  | [] => .nil
  | [x] => x.full
  | x :: y :: xs => x.full ⊹ .space ⊹ testJoin (y :: xs)

/-- `RCallLikeArguments::fmt` (call_arguments.rs:477-615). -/
def argsDoc (o : Opts) (k : CallKind) (aa : Ann) (l : Token) (items : Items) (ds : List ItemDoc)
    (r : Token) : Doc :=
  if ds.isEmpty then tokDoc l ⊹ danglingSoft aa.dangling ⊹ tokDoc r
  else if k = .call ∧ isTestCall items = true then tokDoc l ⊹ testJoin ds ⊹ tokDoc r
  else
    let holes := ds.takeWhile ItemDoc.isHole
    let args := ds.dropWhile ItemDoc.isHole
    if holes.any (fun h => h.sepLines > 1) || args.any (fun x => x.lines > 1) then
      brokenOut true l holes args r
    else if argsBreak o holes args then brokenOut true l holes args r
    else if groupLast items then groupedArgs l holes args r
    else brokenOut false l holes args r

/-! ### Tables (call_arguments_table.rs) -/

/-- `lines_before` (call_arguments_table.rs:237-241). -/
def ItemDoc.rowLines (x : ItemDoc) : Nat :=
  match x.arg.value with
  | some _ => x.lines
  | none => x.sepLines

/-- One cell with padding and separator (call_arguments_table.rs:92-146); how much padding is the
subject of Verif.Model.Table. -/
def cellDoc (x : ItemDoc) : Doc :=
  .pad ⊹
  (if x.arg.isNumeric then x.doc
   else leadingDoc x.arg.ann.leading ⊹ .cell x.fields ⊹ trailingDoc 0 x.arg.ann.trailing) ⊹
  .pad ⊹
  (match x.sep with | some s => .space ⊹ tokDoc s | none => .nil) ⊹ .space

/-- The cells; a new row starts before a cell that is on a new line in the source
(call_arguments_table.rs:74-90,246-249). -/
def tableRows : Bool → List ItemDoc → Doc
  | _, [] => .nil
  | first, x :: xs =>
    (if !first && x.rowLines > 0 then .line (if x.lines ≤ 1 then .hard else .empty) else .nil) ⊹
      cellDoc x ⊹ tableRows false xs

/-- The arguments from the first named one on (call_arguments_table.rs:154-177). -/
def remainingDoc : List ItemDoc → Doc
  | [] => .nil
  | xs => .line .hard ⊹ argsTail xs

/-- `fmt_table` (call_arguments_table.rs:51-190), or the source text if a cell contains a line
break (call_arguments.rs:51-64). -/
def tableDoc (o : Opts) (aa : Ann) (l : Token) (items : Items) (ds : List ItemDoc) (r : Token) :
    Doc :=
  if ds.isEmpty then argsDoc o .call aa l items ds r
  else
    .alt
      (.group true (tokDoc l ⊹
        softBlock (tableRows true (ds.takeWhile (fun x => !x.arg.isNamed)) ⊹
          remainingDoc (ds.dropWhile (fun x => !x.arg.isNamed))) ⊹ tokDoc r))
      (verbatimDoc aa (l :: (items.tokens ++ [r])))

/-! ### Parameters -/

/-- Entries of a parameter list, `join_nodes_with_soft_line` (lists/parameter_list.rs).
(crates/air_r_formatter/src/r/lists/parameter_list.rs:9-34) -/
def paramsTail : List ItemDoc → Doc
  | [] => .nil
  | x :: xs => .line (if x.lines > 1 then .empty else .softOrSpace) ⊹ x.full ⊹ paramsTail xs

/-- The entries of a parameter list, separated by lines
(crates/air_r_formatter/src/r/lists/parameter_list.rs:16-34). -/
def paramsJoin : List ItemDoc → Doc
  | [] => .nil
  | x :: xs => x.full ⊹ paramsTail xs

/-- `FormatRParameters` (parameters.rs:11-56). -/
def paramsDoc (o : Opts) (pa : Ann) (l : Token) (ds : List ItemDoc) (r : Token) : Doc :=
  nodeDoc pa
    (match ds with
     | [] => tokDoc l ⊹ danglingSoft pa.dangling ⊹ tokDoc r
     | x :: _ =>
       .group (o.persistent && leadingNewline x.arg.tokens)
         (tokDoc l ⊹ softBlock (paramsJoin ds) ⊹ tokDoc r))
    .nil

/-! ### Expressions -/

/-- One operator and its right operand in a chain (binary_expression.rs:771-787). -/
def chainPiece (op : Token) (y : Expr) (yd : Doc) : Doc :=
  .space ⊹ tokDoc op ⊹ .line (if linesBefore y.tokens > 1 then .empty else .softOrSpace) ⊹ yd

/-- The fields of a braced expression (braced_expressions.rs:68-130). `ds`: the formatted
expressions with the line breaks before them. -/
def bracedDoc (cx : Cx) (a : Ann) (l : Token) (es : Exprs) (list : Doc) (r : Token) : Doc :=
  match es with
  | .nil => tokDoc l ⊹ danglingHard a.dangling ⊹ tokDoc r
  | es =>
    match curlyCurly cx.inArg es with
    | some (ia, il, ea, t, ir) =>
      .group false
        (leadingDoc ia.leading ⊹ tokDoc l ⊹ tokDoc il ⊹
          spaceBlock (nodeDoc ea (tokDoc t) (danglingSoft ea.dangling)) ⊹
          tokDoc ir ⊹ tokDoc r ⊹ trailingDoc 0 ia.trailing)
    | none => tokDoc l ⊹ hardBlock list ⊹ tokDoc r

/-- `FormatNodeRule::fmt` for an expression whose fields are formatted as `d`: inner nodes of a chain
only print their trailing comments (binary_expression.rs:736-790), suppressed nodes are printed as
they are; `RBracedExpressions` prints its dangling comments itself. -/
def wrapDoc (o : Opts) (cx : Cx) (e : Expr) (d : Doc) : Doc :=
  if cx.chain && e.isChain then d ⊹ trailingDoc 0 e.ann.trailing
  else if suppressed o cx e then verbatimDoc e.ann e.tokens
  else nodeDoc e.ann d (if e.isBraced then .nil else danglingSoft e.ann.dangling)

/-- `FormatNodeRule::fmt` for an argument or parameter; `dir`: it is an argument.
(crates/air_r_formatter/src/lib.rs:202-210, crates/air_r_formatter/src/r/auxiliary/argument.rs:9-30) -/
def argDoc (o : Opts) (dir : Bool) (x : Arg) (d : Doc) : Doc :=
  if hasDirective o dir x.ann .skip then verbatimDoc x.ann x.tokens
  else nodeDoc x.ann d (danglingSoft x.ann.dangling)

mutual
/-- The document of an expression. (crates/air_r_formatter/src/lib.rs:202-220 with the `fmt_fields` of
crates/air_r_formatter/src/r/auxiliary, cited with the parts below) -/
def fmt (o : Opts) (cx : Cx) : Expr → Doc
  | .atom a k t => wrapDoc o cx (.atom a k t) (tokDoc t)
  -- string_value.rs:10-26
  | .str a op c cl =>
    wrapDoc o cx (.str a op c cl)
      (tokDoc op ⊹ (match c with | some t => tokDoc t | none => .nil) ⊹ tokDoc cl)
  -- parenthesized_expression.rs:9-30
  | .paren a l e r =>
    let d := fmt o (bodyCx cx) e
    wrapDoc o cx (.paren a l e r)
      (tokDoc l ⊹ (if commentsDirect e.tokens then hardBlock d else d) ⊹ tokDoc r)
  | .braced a l es r =>
    wrapDoc o cx (.braced a l es r) (bracedDoc cx a l es (fmtExprs o cx false true es) r)
  -- unary_expression.rs:12-34
  | .unary a op e =>
    let d := fmt o (if op.kind = .wat then bodyCx cx else plainCx cx) e
    wrapDoc o cx (.unary a op e)
      (tokDoc op ⊹ maybeSpace (op.kind == .tilde && !e.isTerminal) ⊹
        (if e.ann.any then softBlock d else d))
  -- binary_expression.rs:74-119
  | .binary a x op y =>
    wrapDoc o cx (.binary a x op y)
      (if isSticky op.kind then
        .group false (fmt o (opCx cx op.kind) x ⊹ tokDoc op ⊹ fmt o (opCx cx op.kind) y)
      else if isAssignOp op.kind then
        let yd := fmt o { opCx cx op.kind with
          aligned := assignBreak o op.kind y,
          table := if hasDirective o cx.dir a .table then some true else none } y
        .group false
          (fmt o (opCx cx op.kind) x ⊹ .space ⊹ .tok (assignTok o cx op) ⊹
            (if assignBreak o op.kind y then .indent (.line .hard ⊹ yd) else .space ⊹ yd))
      else if isChainOp op.kind then
        let aligned := cx.aligned
        let xd := fmt o { opCx cx op.kind with chain := true, aligned := aligned } x
        let piece := chainPiece op y (fmt o (opCx cx op.kind) y)
        let d := xd ⊹ (if aligned then piece else .indent piece)
        if cx.chain then d
        else .group (o.persistent && leadingNewline (firstRight x y).tokens) d
      else
        .group false
          (fmt o (opCx cx op.kind) x ⊹ .space ⊹ tokDoc op ⊹
            .indent (.line .softOrSpace ⊹ fmt o (opCx cx op.kind) y)))
  -- extract_expression.rs:10-25, namespace_expression.rs:9-24
  | .sel a k x op y =>
    wrapDoc o cx (.sel a k x op y)
      (.group false (fmt o (plainCx cx) x ⊹ tokDoc op ⊹ fmt o (plainCx cx) y))
  -- call.rs:18-31, subset.rs, subset_2.rs
  | .call a k f aa l items r =>
    let ds := fmtItems o { inArg := true } true items
    let table := cx.table.getD (hasDirective o cx.dir a .table || inSetting o.table f)
    wrapDoc o cx (.call a k f aa l items r)
      (fmt o (plainCx cx) f ⊹
        nodeDoc aa
          (if k = .call ∧ table = true then tableDoc o aa l items ds r
           else argsDoc o k aa l items ds r) .nil)
  -- function_definition.rs:55-99
  | .func a kw pa l items r body =>
    let ps := paramsDoc o pa l (fmtItems o (plainCx cx) false items) r
    wrapDoc o cx (.func a kw pa l items r body)
      (.group false
        (tokDoc kw ⊹ (if cx.flatParams then .noSoft ps else ps) ⊹ .space ⊹
          bodyDoc body.isBraced (leadingNewline body.tokens) (fmt o (bodyCx cx) body)))
  -- if_statement.rs:34-84
  | .ite a kw l c r t =>
    let force := cx.braces.getD (forceBraces cx.effect t none)
    wrapDoc o cx (.ite a kw l c r t)
      (.group false
        (tokDoc kw ⊹ .space ⊹ tokDoc l ⊹ .group false (softBlock (fmt o (plainCx cx) c)) ⊹
          tokDoc r ⊹ .space ⊹ bodyDoc t.isBraced force (fmt o (bodyCx cx) t)))
  -- if_statement.rs:34-84, else_clause.rs:28-46
  | .itee a kw l c r t ea el e =>
    let force := cx.braces.getD (forceBraces cx.effect t (some (el, e)))
    wrapDoc o cx (.itee a kw l c r t ea el e)
      (.group false
        (tokDoc kw ⊹ .space ⊹ tokDoc l ⊹ .group false (softBlock (fmt o (plainCx cx) c)) ⊹
          tokDoc r ⊹ .space ⊹ bodyDoc t.isBraced force (fmt o (bodyCx cx) t) ⊹ .space ⊹
          nodeDoc ea
            (tokDoc el ⊹ .space ⊹
              bodyDoc (e.isBraced || e.isIf) force
                (fmt o { bodyCx cx with braces := if e.isIf then some force else none } e))
            (danglingSoft ea.dangling)))
  -- for_statement.rs:11-38
  | .for_ a kw l v i s r b =>
    wrapDoc o cx (.for_ a kw l v i s r b)
      (.group false
        (tokDoc kw ⊹ .space ⊹ tokDoc l ⊹ fmt o (plainCx cx) v ⊹ .space ⊹ tokDoc i ⊹ .space ⊹
          fmt o (plainCx cx) s ⊹ tokDoc r ⊹ .space ⊹
          bodyDoc b.isBraced true (fmt o (bodyCx cx) b)))
  -- while_statement.rs:11-32
  | .while_ a kw l c r b =>
    wrapDoc o cx (.while_ a kw l c r b)
      (.group false
        (tokDoc kw ⊹ .space ⊹ tokDoc l ⊹ .group false (softBlock (fmt o (plainCx cx) c)) ⊹
          tokDoc r ⊹ .space ⊹ bodyDoc b.isBraced true (fmt o (bodyCx cx) b)))
  -- repeat_statement.rs:11-22
  | .repeat_ a kw b =>
    wrapDoc o cx (.repeat_ a kw b)
      (.group false (tokDoc kw ⊹ .space ⊹ bodyDoc b.isBraced true (fmt o (bodyCx cx) b)))
/-- `FormatRExpressionList` (lists/expression_list.rs:15-26); `top`: the list of the root, `first`:
nothing was written yet. -/
def fmtExprs (o : Opts) (cx : Cx) (top first : Bool) : Exprs → Doc
  | .nil => .nil
  | .cons e es =>
    (if first then .nil else stmtSep top (linesBefore e.tokens)) ⊹
      fmt o { dir := true, eq := true, inArg := cx.inArg, effect := top || 0 < es.length } e ⊹
      fmtExprs o cx top false es
/-- Entries of an argument or parameter list; `vcx`: context of the values.
(crates/air_r_formatter/src/r/lists/parameter_list.rs:9-34,
crates/air_r_formatter/src/r/auxiliary/call_arguments.rs:520-560) -/
def fmtItems (o : Opts) (vcx : Cx) (dir : Bool) : Items → List ItemDoc
  | .nil => []
  | .last x =>
    [⟨x, none, argDoc o dir x (fmtArg o vcx x),
      argDoc o dir x (fmtArg o { vcx with flatParams := true } x), fmtArg o vcx x⟩]
  | .cons x s xs =>
    ⟨x, some s, argDoc o dir x (fmtArg o vcx x),
      argDoc o dir x (fmtArg o { vcx with flatParams := true } x), fmtArg o vcx x⟩ ::
      fmtItems o vcx dir xs
/-- `fmt_argument_fields` (argument.rs:14-42), `FormatRParameter` (parameter.rs:9-19). -/
def fmtArg (o : Opts) (vcx : Cx) : Arg → Doc
  | .hole _ => .nil
  | .val _ e => fmt o vcx e
  | .name _ na n q =>
    nodeDoc na (fmt o (plainCx vcx) n ⊹ .space ⊹ tokDoc q) (danglingSoft na.dangling) ⊹ .space
  | .named _ na n q e =>
    nodeDoc na (fmt o (plainCx vcx) n ⊹ .space ⊹ tokDoc q) (danglingSoft na.dangling) ⊹ .space ⊹
      fmt o vcx e
  | .pdef _ n da q e =>
    fmt o (plainCx vcx) n ⊹ .space ⊹
      nodeDoc da (tokDoc q ⊹ .space ⊹ fmt o vcx e) (danglingSoft da.dangling)
end

/-! ### The file -/

/-- `FormatRRoot::is_suppressed` (root.rs:48-79). -/
def rootSuppressed (o : Opts) : Exprs → Bool
  | .nil => false
  | .cons e _ =>
    match e.ann.leading with
    | [] => false
    | c :: cs =>
      o.generated c.text || (c :: cs).any (fun c => o.directive c.text == some .skipFile)

/-- The whole source text of the file including all trivia; the `EOF` token has no text.
(crates/air_r_formatter/src/r/auxiliary/root.rs:86-118) -/
def rawFile (ts : List Token) (eof : Token) : List El :=
  ts.flatMap (fun t => t.leading.map pieceEl ++ [.tok (outTok t)] ++ t.trailing.map pieceEl) ++
    eof.leading.map pieceEl

/-- `FormatRRoot` (root.rs:25-46,81-111). -/
def fmtRoot (o : Opts) (x : Root) : Doc :=
  if rootSuppressed o x.es then .verb (rawFile x.es.tokens x.eof)
  else
    nodeDoc x.ann (fmtExprs o {} true true x.es ⊹ .line .hard) (danglingSoft x.ann.dangling)

end Verif.Format
