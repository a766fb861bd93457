import Verif.Spec.Source
import Verif.Lemmas.FormatCalm

/-!
# The formatter does not look at blanks
-/

namespace Verif.Format
open Verif.Syntax

/-- `g` and `k` change nothing the formatter looks at. -/
structure Still (g : Token → Token) (k : Comment → Comment) : Prop where
  kind : ∀ t, (g t).kind = t.kind
  text : ∀ t, (g t).text = t.text
  lines : ∀ t, min 3 (linesBeforeToken (g t)) = min 3 (linesBeforeToken t)
  newline : ∀ t, leadingNewlineToken (g t) = leadingNewlineToken t
  leading : ∀ t, hasComment (g t).leading = hasComment t.leading
  trailing : ∀ t, hasComment (g t).trailing = hasComment t.trailing
  comment : ∀ c, (k c).text = c.text
  before : ∀ c, min 2 (k c).before = min 2 c.before
  after : ∀ c, min 2 (k c).after = min 2 c.after

variable {g : Token → Token} {k : Comment → Comment} (hg : Still g k)

mutual
theorem tokens_map (g : Token → Token) (k : Comment → Comment) : ∀ e : Expr, (e.map g k).tokens = e.tokens.map g
  | .atom .. => rfl
  | .str _ _ c _ => by cases c <;> rfl
  | .paren _ _ e _ => by simp [Expr.map, Expr.tokens, tokens_map g k e]
  | .braced _ _ es _ => by simp [Expr.map, Expr.tokens, tokens_maps g k es]
  | .unary _ _ e => by simp [Expr.map, Expr.tokens, tokens_map g k e]
  | .binary _ x _ y => by simp [Expr.map, Expr.tokens, tokens_map g k x, tokens_map g k y]
  | .sel _ _ x _ y => by simp [Expr.map, Expr.tokens, tokens_map g k x, tokens_map g k y]
  | .call _ _ f _ _ xs _ => by simp [Expr.map, Expr.tokens, tokens_map g k f, tokens_mapItems g k xs]
  | .func _ _ _ _ xs _ b => by simp [Expr.map, Expr.tokens, tokens_map g k b, tokens_mapItems g k xs]
  | .ite _ _ _ c _ t => by simp [Expr.map, Expr.tokens, tokens_map g k c, tokens_map g k t]
  | .itee _ _ _ c _ t _ _ e => by
    simp [Expr.map, Expr.tokens, tokens_map g k c, tokens_map g k t, tokens_map g k e]
  | .for_ _ _ _ v _ s _ b => by
    simp [Expr.map, Expr.tokens, tokens_map g k v, tokens_map g k s, tokens_map g k b]
  | .while_ _ _ _ c _ b => by simp [Expr.map, Expr.tokens, tokens_map g k c, tokens_map g k b]
  | .repeat_ _ _ b => by simp [Expr.map, Expr.tokens, tokens_map g k b]
theorem tokens_maps (g : Token → Token) (k : Comment → Comment) : ∀ es : Exprs, (es.map g k).tokens = es.tokens.map g
  | .nil => rfl
  | .cons e es => by simp [Exprs.map, Exprs.tokens, tokens_map g k e, tokens_maps g k es]
theorem tokens_mapItems (g : Token → Token) (k : Comment → Comment) : ∀ xs : Items, (xs.map g k).tokens = xs.tokens.map g
  | .nil => rfl
  | .last x => by simp [Items.map, Items.tokens, tokens_mapArg g k x]
  | .cons x _ xs => by simp [Items.map, Items.tokens, tokens_mapArg g k x, tokens_mapItems g k xs]
theorem tokens_mapArg (g : Token → Token) (k : Comment → Comment) : ∀ x : Arg, (x.map g k).tokens = x.tokens.map g
  | .hole _ => rfl
  | .val _ e => by simp [Arg.map, Arg.tokens, tokens_map g k e]
  | .name _ _ n _ => by simp [Arg.map, Arg.tokens, tokens_map g k n]
  | .named _ _ n _ e => by simp [Arg.map, Arg.tokens, tokens_map g k n, tokens_map g k e]
  | .pdef _ n _ _ e => by simp [Arg.map, Arg.tokens, tokens_map g k n, tokens_map g k e]
end

theorem Expr.ann_map (g : Token → Token) (k : Comment → Comment) (e : Expr) : (e.map g k).ann = e.ann.map k := by
  cases e <;> rfl

theorem Arg.ann_map (g : Token → Token) (k : Comment → Comment) (x : Arg) : (x.map g k).ann = x.ann.map k := by
  cases x <;> rfl

theorem Expr.isBraced_map (g : Token → Token) (k : Comment → Comment) (e : Expr) : (e.map g k).isBraced = e.isBraced := by
  cases e <;> rfl

theorem Expr.isIf_map (g : Token → Token) (k : Comment → Comment) (e : Expr) : (e.map g k).isIf = e.isIf := by
  cases e <;> rfl

theorem Expr.isTerminal_map (g : Token → Token) (k : Comment → Comment) (e : Expr) :
    (e.map g k).isTerminal = e.isTerminal := by
  cases e <;> rfl

theorem Exprs.length_map (g : Token → Token) (k : Comment → Comment) : ∀ es : Exprs, (es.map g k).length = es.length
  | .nil => rfl
  | .cons _ es => by simp [Exprs.map, Exprs.length, Exprs.length_map g k es]

theorem commentsDirect_eq (ts : List Token) : commentsDirect ts =
    ((ts.head?.map (fun t => hasComment t.leading)).getD false ||
      (ts.getLast?.map (fun t => hasComment t.trailing)).getD false) := by
  unfold commentsDirect
  cases ts.head? <;> cases ts.getLast? <;> rfl

section
include hg

theorem Expr.isChain_map (e : Expr) : (e.map g k).isChain = e.isChain := by
  cases e <;> first | rfl | simp [Expr.map, Expr.isChain, hg.kind]

theorem linesBefore_map (ts : List Token) : min 3 (linesBefore (ts.map g)) = min 3 (linesBefore ts) := by
  cases ts <;> simp [linesBefore, hg.lines]

theorem leadingNewline_map (ts : List Token) : leadingNewline (ts.map g) = leadingNewline ts := by
  cases ts <;> simp [leadingNewline, hg.newline]

theorem commentsDirect_map (ts : List Token) : commentsDirect (ts.map g) = commentsDirect ts := by
  rw [commentsDirect_eq, commentsDirect_eq, List.head?_map, List.getLast?_map, Option.map_map,
    Option.map_map]
  have h1 : ((fun t => hasComment t.leading) ∘ g) = fun t => hasComment t.leading :=
    funext fun t => hg.leading t
  have h2 : ((fun t => hasComment t.trailing) ∘ g) = fun t => hasComment t.trailing :=
    funext fun t => hg.trailing t
  rw [h1, h2]

theorem outTok_map (t : Token) : outTok (g t) = outTok t := by
  unfold outTok; rw [hg.kind, hg.text]

theorem tokDoc_map (t : Token) : tokDoc (g t) = tokDoc t := by
  unfold tokDoc; rw [outTok_map hg]

theorem assignTok_map (o : Opts) (cx : Cx) (t : Token) :
    assignTok o cx (g t) = assignTok o cx t := by
  unfold assignTok; rw [hg.kind, outTok_map hg]

theorem calleeName_map (f : Expr) : calleeName (f.map g k) = calleeName f := by
  cases f with
  | atom a k t => cases k <;> simp [Expr.map, calleeName, hg.text]
  | sel a k x p y =>
    cases k with
    | extract => rfl
    | «namespace» =>
      cases y with
      | atom a k t => cases k <;> simp [Expr.map, calleeName, hg.text]
      | _ => rfl
  | _ => rfl

theorem inSetting_map (p : List Byte → Bool) (f : Expr) :
    inSetting p (f.map g k) = inSetting p f := by
  unfold inSetting; rw [calleeName_map hg]

theorem leadingDoc_map (cs : List Comment) : leadingDoc (cs.map k) = leadingDoc cs := by
  induction cs with
  | nil => rfl
  | cons c cs ih =>
    have : ((k c).after ≤ 1) = (c.after ≤ 1) := by have := hg.after c; exact propext (by omega)
    simp only [List.map_cons, leadingDoc, ih, hg.comment, this]

theorem trailingDoc_map (cs : List Comment) : ∀ n m : Nat, min 1 n = min 1 m →
    trailingDoc n (cs.map k) = trailingDoc m cs := by
  induction cs with
  | nil => intro n m _; rfl
  | cons c cs ih =>
    intro n m h
    have hb := hg.before c
    have h1 : (1 < (k c).before) = (1 < c.before) := propext (by omega)
    have h2 : (n + (k c).before = 0) = (m + c.before = 0) := propext (by omega)
    have h3 := ih (n + (k c).before) (m + c.before) (by omega)
    simp only [List.map_cons, trailingDoc, hg.comment, h1, h2, h3]

theorem danglingComments_map (cs : List Comment) : danglingComments (cs.map k) = danglingComments cs := by
  induction cs with
  | nil => rfl
  | cons c cs ih =>
    cases cs with
    | nil => simp only [List.map_cons, List.map_nil, danglingComments, hg.comment]
    | cons d cs =>
      simp only [List.map_cons] at ih
      simp only [List.map_cons, danglingComments, hg.comment, ih]

theorem danglingSoft_map (cs : List Comment) : danglingSoft (cs.map k) = danglingSoft cs := by
  unfold danglingSoft; rw [danglingComments_map hg, List.isEmpty_map]

theorem danglingHard_map (cs : List Comment) : danglingHard (cs.map k) = danglingHard cs := by
  unfold danglingHard; rw [danglingComments_map hg, List.isEmpty_map]

theorem nodeDoc_map (a : Ann) (d d' : Doc) : nodeDoc (a.map k) d d' = nodeDoc a d d' := by
  unfold nodeDoc
  rw [Ann.map, leadingDoc_map hg, trailingDoc_map hg _ 0 0 rfl]

omit hg in
theorem any_map (a : Ann) : (a.map k).any = a.any := by
  simp only [Ann.any, Ann.map, List.isEmpty_map]

theorem hasDirective_map (o : Opts) (dir : Bool) (a : Ann) (d : Verif.Directive.Directive) :
    hasDirective o dir (a.map k) d = hasDirective o dir a d := by
  simp only [hasDirective, Ann.map, List.any_map, Function.comp_def, hg.comment]

theorem dangling_map (a : Ann) : danglingSoft (a.map k).dangling = danglingSoft a.dangling :=
  danglingSoft_map hg _

theorem suppressed_map (o : Opts) (cx : Cx) (e : Expr) :
    suppressed o cx (e.map g k) = suppressed o cx e := by
  cases e with
  | call a n f aa l items r =>
    cases n <;> simp [Expr.map, suppressed, inSetting_map hg, Expr.ann, hasDirective_map hg]
  | _ => exact hasDirective_map hg ..

theorem firstRight_map : ∀ (x y : Expr),
    (firstRight (x.map g k) (y.map g k)) = (firstRight x y).map g k
  | .binary _ x op z, y => by
    simp only [Expr.map, firstRight, hg.kind]
    split
    · exact firstRight_map x z
    · rfl
  | .atom .., y | .str .., y | .paren .., y | .braced .., y | .unary .., y | .sel .., y
  | .call .., y | .func .., y | .ite .., y | .itee .., y | .for_ .., y | .while_ .., y
  | .repeat_ .., y => rfl

theorem assignBreak_map (o : Opts) (op : Kind) (y : Expr) :
    assignBreak o op (y.map g k) = assignBreak o op y := by
  unfold assignBreak; rw [tokens_map, leadingNewline_map hg]

theorem forceBraces_map1 (b : Bool) (t : Expr) :
    forceBraces b (t.map g k) none = forceBraces b t none := by
  unfold forceBraces
  rw [tokens_map, leadingNewline_map hg, Expr.isBraced_map, Expr.isIf_map]

theorem forceBraces_map2 (b : Bool) (t : Expr) (el : Token) (e : Expr) :
    forceBraces b (t.map g k) (some (g el, e.map g k)) = forceBraces b t (some (el, e)) := by
  unfold forceBraces
  simp only [tokens_map, leadingNewline_map hg, Expr.isBraced_map, Expr.isIf_map, hg.newline]

theorem wrapDoc_map {o : Opts} {cx : Cx} {e : Expr} (h : e.ordinary o = true) (d : Doc) :
    wrapDoc o cx (e.map g k) d = wrapDoc o cx e d := by
  unfold wrapDoc
  rw [suppressed_map hg, ordinary_suppressed h, Expr.isChain_map hg, Expr.isBraced_map,
    Expr.ann_map, nodeDoc_map hg, Ann.map, trailingDoc_map hg _ 0 0 rfl, danglingSoft_map hg]
  rfl

end

/-- The entry with changed tokens. -/
def ItemDoc.map (g : Token → Token) (k : Comment → Comment) (d : ItemDoc) : ItemDoc :=
  { d with arg := d.arg.map g k, sep := d.sep.map g }

section
include hg

theorem ItemDoc.sepDoc_map (d : ItemDoc) : (d.map g k).sepDoc = d.sepDoc := by
  unfold ItemDoc.sepDoc ItemDoc.map
  cases d.sep <;> simp [tokDoc_map hg]

theorem ItemDoc.full_map (d : ItemDoc) : (d.map g k).full = d.full := by
  unfold ItemDoc.full; rw [ItemDoc.sepDoc_map hg]; rfl

theorem ItemDoc.lines_map (d : ItemDoc) : min 3 (d.map g k).lines = min 3 d.lines := by
  unfold ItemDoc.lines
  rw [← linesBefore_map hg d.arg.tokens, ← tokens_mapArg (k := k)]; rfl

theorem ItemDoc.lines_le (d : ItemDoc) : ((d.map g k).lines ≤ 1) = (d.lines ≤ 1) :=
  propext (by have := ItemDoc.lines_map hg d; omega)

theorem ItemDoc.lines_gt (d : ItemDoc) : ((d.map g k).lines > 1) = (d.lines > 1) :=
  propext (by have := ItemDoc.lines_map hg d; omega)

theorem ItemDoc.lines_pos (d : ItemDoc) : ((d.map g k).lines > 0) = (d.lines > 0) :=
  propext (by have := ItemDoc.lines_map hg d; omega)

theorem ItemDoc.sepLines_map (d : ItemDoc) : min 3 (d.map g k).sepLines = min 3 d.sepLines := by
  unfold ItemDoc.sepLines ItemDoc.map
  cases d.sep <;> simp [hg.lines]

omit hg in
theorem ItemDoc.isHole_map (d : ItemDoc) : (d.map g k).isHole = d.isHole := by
  unfold ItemDoc.isHole ItemDoc.map
  cases d.arg <;> first | rfl | simp only [Arg.map, any_map]

theorem argsTail_map (ds : List ItemDoc) : argsTail (ds.map (·.map g k)) = argsTail ds := by
  induction ds with
  | nil => rfl
  | cons d ds ih => simp only [List.map_cons, argsTail, ih, ItemDoc.full_map hg, ItemDoc.lines_le hg]

theorem argsJoin_map (ds : List ItemDoc) : argsJoin (ds.map (·.map g k)) = argsJoin ds := by
  cases ds <;> simp [argsJoin, ItemDoc.full_map hg, argsTail_map hg]

theorem paramsTail_map (ds : List ItemDoc) : paramsTail (ds.map (·.map g k)) = paramsTail ds := by
  induction ds with
  | nil => rfl
  | cons d ds ih => simp only [List.map_cons, paramsTail, ih, ItemDoc.full_map hg, ItemDoc.lines_gt hg]

theorem paramsJoin_map (ds : List ItemDoc) : paramsJoin (ds.map (·.map g k)) = paramsJoin ds := by
  cases ds <;> simp [paramsJoin, ItemDoc.full_map hg, paramsTail_map hg]

theorem testJoin_map (ds : List ItemDoc) : testJoin (ds.map (·.map g k)) = testJoin ds := by
  induction ds with
  | nil => rfl
  | cons d ds ih =>
    cases ds with
    | nil => simp [testJoin, ItemDoc.full_map hg]
    | cons e ds =>
      simp only [List.map_cons, testJoin, ItemDoc.full_map hg] at ih ⊢
      rw [ih]

theorem groupedJoin_map (ex single : Bool) (ds : List ItemDoc) :
    groupedJoin ex single (ds.map (·.map g k)) = groupedJoin ex single ds := by
  induction ds with
  | nil => rfl
  | cons d ds ih =>
    cases ds with
    | nil => simp only [List.map_cons, List.map_nil, groupedJoin, ItemDoc.sepDoc_map hg]; rfl
    | cons e ds =>
      simp only [List.map_cons, groupedJoin, ItemDoc.full_map hg] at ih ⊢
      rw [ih]

theorem fulls_map (ds : List ItemDoc) :
    (ds.map (·.map g k)).map ItemDoc.full = ds.map ItemDoc.full := by
  rw [List.map_map]
  exact List.map_congr_left fun d _ => ItemDoc.full_map hg d

theorem hugging_map (r : Token) (ds : List ItemDoc) :
    hugging (g r) (ds.map (·.map g k)) = hugging r ds := by
  match ds with
  | [] => rfl
  | [d] =>
    obtain ⟨arg, sep, d1, d2, d3⟩ := d
    cases arg with
    | val a e =>
      simp only [List.map_cons, List.map_nil, ItemDoc.map, Arg.map, hugging, tokens_map,
        commentsDirect_map hg, hg.leading]
      cases e <;> rfl
    | _ => rfl
  | _ :: _ :: _ => rfl

theorem brokenOut_map (ex : Bool) (l : Token) (hs as : List ItemDoc) (r : Token) :
    brokenOut ex (g l) (hs.map (·.map g k)) (as.map (·.map g k)) (g r) = brokenOut ex l hs as r := by
  unfold brokenOut
  rw [fulls_map hg, hugging_map hg, argsJoin_map hg, tokDoc_map hg, tokDoc_map hg,
    List.isEmpty_map, List.isEmpty_map]

theorem groupedArgs_map (l : Token) (hs as : List ItemDoc) (r : Token) :
    groupedArgs (g l) (hs.map (·.map g k)) (as.map (·.map g k)) (g r) = groupedArgs l hs as r := by
  unfold groupedArgs
  dsimp only
  rw [fulls_map hg, groupedJoin_map hg, brokenOut_map hg, tokDoc_map hg, tokDoc_map hg,
    List.isEmpty_map, List.isEmpty_map, List.length_map]
  simp only [groupedJoin_map hg]

omit hg in
theorem args_map (xs : Items) : (xs.map g k).args = xs.args.map (·.map g k) := by
  match xs with
  | .nil => rfl
  | .last x => rfl
  | .cons x s xs => simp [Items.map, Items.args, args_map xs]

omit hg in
theorem value_map (x : Arg) : (x.map g k).value = x.value.map (·.map g k) := by
  cases x <;> rfl

omit hg in
theorem nameAnn_map (x : Arg) : (x.map g k).nameAnn = x.nameAnn.map k := by
  cases x <;> rfl

omit hg in
theorem curlyCurly_two (b : Bool) (e f : Expr) (fs : Exprs) :
    curlyCurly b (.cons e (.cons f fs)) = none := by
  unfold curlyCurly
  split
  · next h => cases h
  · rfl

omit hg in
theorem curlyCurly_inner (b : Bool) (a : Ann) (l r : Token) (e f : Expr) (fs : Exprs) :
    curlyCurly b (.cons (.braced a l (.cons e (.cons f fs)) r) .nil) = none := by
  unfold curlyCurly
  split
  · next h => cases h
  · rfl

omit hg in
theorem curlyCurly_isNone_map (b : Bool) (es : Exprs) :
    (curlyCurly b (es.map g k)).isNone = (curlyCurly b es).isNone := by
  match es with
  | .nil => rfl
  | .cons _ (.cons ..) => simp only [Exprs.map, curlyCurly_two]
  | .cons e .nil =>
    cases e with
    | braced a l es r =>
      match es with
      | .nil => rfl
      | .cons _ (.cons ..) => simp only [Exprs.map, Expr.map, curlyCurly_inner]
      | .cons e .nil =>
        cases e with
        | atom a n t =>
          cases n <;> cases b <;> rfl
        | _ => rfl
    | _ => rfl

omit hg in
theorem groupableBraces_map (a : Ann) (b : Bool) (es : Exprs) :
    groupableBraces (a.map k) b (es.map g k) = groupableBraces a b es := by
  cases es with
  | nil => simp only [Exprs.map, groupableBraces, Ann.map, List.isEmpty_map]
  | cons e es =>
    have := curlyCurly_isNone_map (g := g) (k := k) b (.cons e es)
    simpa [Exprs.map, groupableBraces] using this

omit hg in
theorem groupable_map (e : Expr) : groupable (e.map g k) = groupable e := by
  cases e with
  | braced a l es r => exact groupableBraces_map a true es
  | func a kw pa l items r b =>
    cases b with
    | braced a l es r => exact groupableBraces_map a true es
    | _ => rfl
  | _ => rfl

omit hg in
theorem groupLast_map (xs : Items) : groupLast (xs.map g k) = groupLast xs := by
  unfold groupLast
  rw [args_map, List.getLast?_map]
  cases xs.args.getLast? with
  | none => rfl
  | some x =>
    simp only [Option.map_some, Arg.ann_map, nameAnn_map, value_map, any_map]
    cases x.value with
    | none => rfl
    | some e => simp [groupable_map]

omit hg in
theorem isTestCall_map (xs : Items) : isTestCall (xs.map g k) = isTestCall xs := by
  unfold isTestCall
  rw [args_map]
  match xs.args with
  | [] => rfl
  | [_] => rfl
  | [x, y] =>
    simp only [List.map_cons, List.map_nil, value_map]
    cases x.value with
    | none => rfl
    | some e =>
      cases y.value with
      | none => cases e <;> rfl
      | some f => cases e <;> cases f <;> rfl
  | _ :: _ :: _ :: _ => rfl

theorem argsBreak_map (o : Opts) (hs as : List ItemDoc) :
    argsBreak o (hs.map (·.map g k)) (as.map (·.map g k)) = argsBreak o hs as := by
  unfold argsBreak
  rw [List.any_map]
  have h1 : ((fun h : ItemDoc => decide (h.sepLines > 0)) ∘ (·.map g k)) =
      fun h : ItemDoc => decide (h.sepLines > 0) :=
    funext fun h => by
      have := ItemDoc.sepLines_map hg h
      simp only [Function.comp_apply, decide_eq_decide]; omega
  rw [h1]
  cases as with
  | nil => rfl
  | cons x xs => simp only [List.map_cons, ItemDoc.lines_pos hg]

theorem argsDoc_map (o : Opts) (n : CallKind) (aa : Ann) (l : Token) (items : Items)
    (ds : List ItemDoc) (r : Token) :
    argsDoc o n (aa.map k) (g l) (items.map g k) (ds.map (·.map g k)) (g r) = argsDoc o n aa l items ds r := by
  have h1 : ((fun h : ItemDoc => decide (h.sepLines > 1)) ∘ (·.map g k)) =
      fun h : ItemDoc => decide (h.sepLines > 1) :=
    funext fun h => by
      have := ItemDoc.sepLines_map hg h
      simp only [Function.comp_apply, decide_eq_decide]; omega
  have h2 : ((fun h : ItemDoc => decide (h.lines > 1)) ∘ (·.map g k)) =
      fun h : ItemDoc => decide (h.lines > 1) :=
    funext fun h => by simp only [Function.comp_apply, ItemDoc.lines_gt hg]
  have h3 : (ItemDoc.isHole ∘ (·.map g k)) = ItemDoc.isHole :=
    funext fun h => ItemDoc.isHole_map h
  have h4 : danglingSoft (aa.map k).dangling = danglingSoft aa.dangling := danglingSoft_map hg _
  unfold argsDoc
  simp only [h4, List.isEmpty_map, tokDoc_map hg, isTestCall_map, testJoin_map hg, groupLast_map,
    List.takeWhile_map, List.dropWhile_map, h3, List.any_map, h1, h2, brokenOut_map hg,
    groupedArgs_map hg, argsBreak_map hg]

theorem paramsDoc_map (o : Opts) (pa : Ann) (l : Token) (ds : List ItemDoc) (r : Token) :
    paramsDoc o (pa.map k) (g l) (ds.map (·.map g k)) (g r) = paramsDoc o pa l ds r := by
  have h4 : danglingSoft (pa.map k).dangling = danglingSoft pa.dangling := danglingSoft_map hg _
  unfold paramsDoc
  rw [nodeDoc_map hg]
  cases ds with
  | nil => simp only [List.map_nil, tokDoc_map hg, h4]
  | cons x xs =>
    have := paramsJoin_map hg (x :: xs)
    simp only [List.map_cons] at this
    have h2 : (x.map g k).arg = x.arg.map g k := rfl
    simp only [List.map_cons, this, tokDoc_map hg, h2, tokens_mapArg, leadingNewline_map hg]

theorem bracedDoc_map (cx : Cx) (a : Ann) (l : Token) (es : Exprs) (d : Doc) (r : Token) :
    bracedDoc cx (a.map k) (g l) (es.map g k) d (g r) = bracedDoc cx a l es d r := by
  have key : ∀ es : Exprs, curlyCurly cx.inArg (es.map g k) =
      (curlyCurly cx.inArg es).map (fun (ia, il, ea, t, ir) => (ia.map k, g il, ea.map k, g t, g ir)) := by
    intro es
    match es with
    | .nil => rfl
    | .cons _ (.cons ..) => simp only [Exprs.map, curlyCurly_two, Option.map_none]
    | .cons e .nil =>
      cases e with
      | braced a l es r =>
        match es with
        | .nil => rfl
        | .cons _ (.cons ..) => simp only [Exprs.map, Expr.map, curlyCurly_inner, Option.map_none]
        | .cons e .nil =>
          cases e with
          | atom a n t =>
            cases n <;> simp only [Exprs.map, Expr.map, curlyCurly] <;> first | rfl | (split <;> rfl)
          | _ => rfl
      | _ => rfl
  have h4 : danglingHard (a.map k).dangling = danglingHard a.dangling := danglingHard_map hg _
  have h5 : ∀ a : Ann, leadingDoc (a.map k).leading = leadingDoc a.leading := fun a => leadingDoc_map hg _
  have h6 : ∀ a : Ann, trailingDoc 0 (a.map k).trailing = trailingDoc 0 a.trailing :=
    fun a => trailingDoc_map hg _ 0 0 rfl
  have h7 : ∀ a : Ann, danglingSoft (a.map k).dangling = danglingSoft a.dangling := fun a => danglingSoft_map hg _
  cases es with
  | nil => simp only [bracedDoc, Exprs.map, tokDoc_map hg, h4]
  | cons e es =>
    have := key (.cons e es)
    simp only [Exprs.map] at this
    simp only [Exprs.map, bracedDoc, this, tokDoc_map hg]
    cases curlyCurly cx.inArg (.cons e es) with
    | none => rfl
    | some x => simp only [Option.map_some, tokDoc_map hg, nodeDoc_map hg, h5, h6, h7]

theorem chainPiece_map (op : Token) (y : Expr) (d : Doc) :
    chainPiece (g op) (y.map g k) d = chainPiece op y d := by
  have h := linesBefore_map hg y.tokens
  have : (linesBefore (y.tokens.map g) > 1) = (linesBefore y.tokens > 1) := propext (by omega)
  unfold chainPiece
  simp only [tokDoc_map hg, tokens_map, this]

theorem stmtSep_map (b : Bool) (ts : List Token) :
    stmtSep b (linesBefore (ts.map g)) = stmtSep b (linesBefore ts) := by
  have h := linesBefore_map hg ts
  have h1 : (linesBefore (ts.map g) > 2) = (linesBefore ts > 2) := propext (by omega)
  have h2 : (linesBefore (ts.map g) = 2) = (linesBefore ts = 2) := propext (by omega)
  have h3 : (linesBefore (ts.map g) > 1) = (linesBefore ts > 1) := propext (by omega)
  unfold stmtSep
  simp only [h1, h2, h3]

end

/-- A table is never asked for through the context. -/
def Cx.NoTable (cx : Cx) : Prop := cx.table ≠ some true

variable {o : Opts}

mutual
theorem fmt_map (hg : Still g k) : ∀ (e : Expr) (cx : Cx), cx.NoTable → e.ordinary o = true →
    fmt o cx (e.map g k) = fmt o cx e
  | .atom a n t, cx, _, h => by
    have hw := wrapDoc_map hg (cx := cx) h
    simp only [Expr.map] at hw ⊢
    simp only [fmt, hw, tokDoc_map hg]
  | .str a p c l, cx, _, h => by
    have hw := wrapDoc_map hg (cx := cx) h
    simp only [Expr.map] at hw ⊢
    cases c <;> simp only [Option.map_some, Option.map_none] at hw ⊢ <;>
      simp only [fmt, hw, tokDoc_map hg]
  | .paren a l e r, cx, _, h => by
    have hw := wrapDoc_map hg (cx := cx) h
    simp only [Expr.map] at hw ⊢
    simp only [Expr.ordinary, Bool.and_eq_true] at h
    simp only [fmt, hw, tokDoc_map hg, tokens_map, commentsDirect_map hg,
      fmt_map hg e (bodyCx cx) (fun h => by cases h) h.2]
  | .braced a l es r, cx, _, h => by
    have hw := wrapDoc_map hg (cx := cx) h
    simp only [Expr.map] at hw ⊢
    simp only [Expr.ordinary, Bool.and_eq_true] at h
    simp only [fmt, hw, bracedDoc_map hg, fmt_maps hg es cx false true h.2]
  | .unary a p e, cx, _, h => by
    have hw := wrapDoc_map hg (cx := cx) h
    simp only [Expr.map] at hw ⊢
    simp only [Expr.ordinary, Bool.and_eq_true] at h
    have hn : (if p.kind = .wat then bodyCx cx else plainCx cx).NoTable := by
      intro h; split at h <;> cases h
    simp only [fmt, hw, tokDoc_map hg, hg.kind, Expr.isTerminal_map, Expr.ann_map, any_map,
      fmt_map hg e _ hn h.2]
  | .binary a x p y, cx, _, h => by
    have hw := wrapDoc_map hg (cx := cx) h
    simp only [Expr.map] at hw ⊢
    simp only [Expr.ordinary, Bool.and_eq_true] at h
    have hy : ∀ cx' : Cx, cx'.NoTable → fmt o cx' (y.map g k) = fmt o cx' y :=
      fun cx' h' => fmt_map hg y cx' h' h.2
    have hx : ∀ cx' : Cx, cx'.NoTable → fmt o cx' (x.map g k) = fmt o cx' x :=
      fun cx' h' => fmt_map hg x cx' h' h.1.2
    have h1 := hx (opCx cx p.kind) (fun h => by cases h)
    have h2 := hy (opCx cx p.kind) (fun h => by cases h)
    have h3 := hx { opCx cx p.kind with chain := true, aligned := cx.aligned }
      (fun h => by cases h)
    have h4 := hy { opCx cx p.kind with aligned := assignBreak o p.kind y, table := none }
      (fun h => by cases h)
    have h5 : hasDirective o cx.dir a .table = false := ordinary_dir h.1.1 _ (.inr rfl)
    simp only [fmt, hw, hasDirective_map hg, tokDoc_map hg, hg.kind, assignTok_map hg, assignBreak_map hg,
      chainPiece_map hg, firstRight_map hg, tokens_map, leadingNewline_map hg, h1, h2, h3, h5]
    simp only [Bool.false_eq_true, if_false, h4]
  | .sel a n x p y, cx, _, h => by
    have hw := wrapDoc_map hg (cx := cx) h
    simp only [Expr.map] at hw ⊢
    simp only [Expr.ordinary, Bool.and_eq_true] at h
    simp only [fmt, hw, tokDoc_map hg, fmt_map hg x (plainCx cx) (fun h => by cases h) h.1.2,
      fmt_map hg y (plainCx cx) (fun h => by cases h) h.2]
  | .call a n f aa l items r, cx, hc, h => by
    have hw := wrapDoc_map hg (cx := cx) h
    simp only [Expr.map] at hw ⊢
    simp only [Expr.ordinary, Bool.and_eq_true, Bool.not_eq_true'] at h
    have h5 : hasDirective o cx.dir a .table = false := ordinary_dir h.1.1.1 _ (.inr rfl)
    have h6 := (listed_setting h.1.1.2).2
    have h7 : cx.table.getD false = false := by
      have : cx.table ≠ some true := hc
      rcases hh : cx.table with _ | b
      · rfl
      · cases b
        · rfl
        · exact absurd hh this
    simp only [fmt, hw, fmt_map hg f (plainCx cx) (fun h => by cases h) h.1.2,
      fmt_mapItems hg items { inArg := true } true (fun h => by cases h) h.2,
      hasDirective_map hg, inSetting_map hg, h5, h6, h7, Bool.or_false, Bool.false_eq_true, and_false, if_false,
      argsDoc_map hg, nodeDoc_map hg]
  | .func a kw pa l items r b, cx, _, h => by
    have hw := wrapDoc_map hg (cx := cx) h
    simp only [Expr.map] at hw ⊢
    simp only [Expr.ordinary, Bool.and_eq_true] at h
    simp only [fmt, hw, tokDoc_map hg, Expr.isBraced_map, tokens_map, leadingNewline_map hg,
      fmt_map hg b (bodyCx cx) (fun h => by cases h) h.2, paramsDoc_map hg,
      fmt_mapItems hg items (plainCx cx) false (fun h => by cases h) h.1.2]
  | .ite a kw l c r t, cx, _, h => by
    have hw := wrapDoc_map hg (cx := cx) h
    simp only [Expr.map] at hw ⊢
    simp only [Expr.ordinary, Bool.and_eq_true] at h
    simp only [fmt, hw, tokDoc_map hg, Expr.isBraced_map, forceBraces_map1 hg,
      fmt_map hg t (bodyCx cx) (fun h => by cases h) h.2,
      fmt_map hg c (plainCx cx) (fun h => by cases h) h.1.2]
  | .itee a kw l c r t ea el e, cx, _, h => by
    have hw := wrapDoc_map hg (cx := cx) h
    simp only [Expr.map] at hw ⊢
    simp only [Expr.ordinary, Bool.and_eq_true] at h
    have he : ∀ cx' : Cx, cx'.NoTable → fmt o cx' (e.map g k) = fmt o cx' e :=
      fun cx' h' => fmt_map hg e cx' h' h.2
    have he' := fun br : Option Bool => he { bodyCx cx with braces := br } (fun h => by cases h)
    simp only [fmt, hw, tokDoc_map hg, Expr.isBraced_map, Expr.isIf_map, forceBraces_map2 hg,
      fmt_map hg t (bodyCx cx) (fun h => by cases h) h.1.2,
      fmt_map hg c (plainCx cx) (fun h => by cases h) h.1.1.2, he', nodeDoc_map hg, dangling_map hg]
  | .for_ a kw l v i s r b, cx, _, h => by
    have hw := wrapDoc_map hg (cx := cx) h
    simp only [Expr.map] at hw ⊢
    simp only [Expr.ordinary, Bool.and_eq_true] at h
    simp only [fmt, hw, tokDoc_map hg, Expr.isBraced_map,
      fmt_map hg b (bodyCx cx) (fun h => by cases h) h.2,
      fmt_map hg s (plainCx cx) (fun h => by cases h) h.1.2,
      fmt_map hg v (plainCx cx) (fun h => by cases h) h.1.1.2]
  | .while_ a kw l c r b, cx, _, h => by
    have hw := wrapDoc_map hg (cx := cx) h
    simp only [Expr.map] at hw ⊢
    simp only [Expr.ordinary, Bool.and_eq_true] at h
    simp only [fmt, hw, tokDoc_map hg, Expr.isBraced_map,
      fmt_map hg b (bodyCx cx) (fun h => by cases h) h.2,
      fmt_map hg c (plainCx cx) (fun h => by cases h) h.1.2]
  | .repeat_ a kw b, cx, _, h => by
    have hw := wrapDoc_map hg (cx := cx) h
    simp only [Expr.map] at hw ⊢
    simp only [Expr.ordinary, Bool.and_eq_true] at h
    simp only [fmt, hw, tokDoc_map hg, Expr.isBraced_map,
      fmt_map hg b (bodyCx cx) (fun h => by cases h) h.2]
theorem fmt_maps (hg : Still g k) : ∀ (es : Exprs) (cx : Cx) (top first : Bool),
    es.ordinary o = true → fmtExprs o cx top first (es.map g k) = fmtExprs o cx top first es
  | .nil, _, _, _, _ => rfl
  | .cons e es, cx, top, first, h => by
    simp only [Exprs.ordinary, Bool.and_eq_true] at h
    simp only [Exprs.map, fmtExprs, tokens_map, stmtSep_map hg, Exprs.length_map,
      fmt_maps hg es cx top false h.2,
      fmt_map hg e { dir := true, eq := true, inArg := cx.inArg, effect := top || 0 < es.length }
        (fun h => by cases h) h.1]
theorem fmt_mapItems (hg : Still g k) : ∀ (xs : Items) (vcx : Cx) (dir : Bool), vcx.NoTable →
    xs.ordinary o = true → fmtItems o vcx dir (xs.map g k) = (fmtItems o vcx dir xs).map (·.map g k)
  | .nil, _, _, _, _ => rfl
  | .last x, vcx, dir, hv, h => by
    simp only [Items.ordinary] at h
    have h1 := fmt_mapArg hg x vcx dir hv h
    have h2 := fmt_mapArg hg x { vcx with flatParams := true } dir hv h
    simp only [Items.map, fmtItems, h1, h2, List.map_cons, List.map_nil, ItemDoc.map,
      Option.map_none]
  | .cons x s xs, vcx, dir, hv, h => by
    simp only [Items.ordinary, Bool.and_eq_true] at h
    have h1 := fmt_mapArg hg x vcx dir hv h.1
    have h2 := fmt_mapArg hg x { vcx with flatParams := true } dir hv h.1
    simp only [Items.map, fmtItems, h1, h2, List.map_cons, ItemDoc.map,
      Option.map_some, fmt_mapItems hg xs vcx dir hv h.2]
theorem fmt_mapArg (hg : Still g k) : ∀ (x : Arg) (vcx : Cx) (dir : Bool), vcx.NoTable →
    x.ordinary o = true →
    fmtArg o vcx (x.map g k) = fmtArg o vcx x ∧
    ∀ d, argDoc o dir (x.map g k) d = argDoc o dir x d
  | .hole a, vcx, dir, _, h => ⟨rfl, fun d => by
    simp only [Arg.ordinary] at h
    simp only [argDoc, Arg.map, Arg.ann, hasDirective_map hg, nodeDoc_map hg, dangling_map hg,
      ordinary_dir h _ (.inl rfl), Bool.false_eq_true, if_false]⟩
  | .val a e, vcx, dir, hv, h => by
    simp only [Arg.ordinary, Bool.and_eq_true] at h
    refine ⟨?_, fun d => ?_⟩
    · simp only [Arg.map, fmtArg, fmt_map hg e vcx hv h.2]
    · simp only [argDoc, Arg.map, Arg.ann, hasDirective_map hg, nodeDoc_map hg, dangling_map hg, ordinary_dir h.1 _ (.inl rfl), Bool.false_eq_true, if_false]
  | .name a na n q, vcx, dir, hv, h => by
    simp only [Arg.ordinary, Bool.and_eq_true] at h
    refine ⟨?_, fun d => ?_⟩
    · simp only [Arg.map, fmtArg, tokDoc_map hg, nodeDoc_map hg, dangling_map hg, fmt_map hg n (plainCx vcx) (fun h => by cases h) h.2]
    · simp only [argDoc, Arg.map, Arg.ann, hasDirective_map hg, nodeDoc_map hg, dangling_map hg, ordinary_dir h.1 _ (.inl rfl), Bool.false_eq_true, if_false]
  | .named a na n q e, vcx, dir, hv, h => by
    simp only [Arg.ordinary, Bool.and_eq_true] at h
    refine ⟨?_, fun d => ?_⟩
    · simp only [Arg.map, fmtArg, tokDoc_map hg, nodeDoc_map hg, dangling_map hg,
        fmt_map hg n (plainCx vcx) (fun h => by cases h) h.1.2, fmt_map hg e vcx hv h.2]
    · simp only [argDoc, Arg.map, Arg.ann, hasDirective_map hg, nodeDoc_map hg, dangling_map hg, ordinary_dir h.1.1 _ (.inl rfl), Bool.false_eq_true, if_false]
  | .pdef a n da q e, vcx, dir, hv, h => by
    simp only [Arg.ordinary, Bool.and_eq_true] at h
    refine ⟨?_, fun d => ?_⟩
    · simp only [Arg.map, fmtArg, tokDoc_map hg, nodeDoc_map hg, dangling_map hg,
        fmt_map hg n (plainCx vcx) (fun h => by cases h) h.1.2, fmt_map hg e vcx hv h.2]
    · simp only [argDoc, Arg.map, Arg.ann, hasDirective_map hg, nodeDoc_map hg, dangling_map hg, ordinary_dir h.1.1 _ (.inl rfl), Bool.false_eq_true, if_false]
end

/-- Leaving comments as they are. -/
theorem ann_id (a : Ann) : a.map (fun c => c) = a := by
  simp [Ann.map]

section
include hg

theorem asks_map (o : Opts) (a : Ann) (d : Verif.Directive.Directive) : (a.map k).asks o d = a.asks o d := by
  simp only [Ann.asks, Ann.map, List.any_map, Function.comp_def, hg.comment]

theorem ordinaryAnn_map (o : Opts) (a : Ann) : (a.map k).ordinary o = a.ordinary o := by
  simp only [Ann.ordinary, asks_map hg]

theorem listed_map (o : Opts) (f : Expr) : listed o (f.map g k) = listed o f := by
  cases f with
  | atom a n t => cases n <;> simp [Expr.map, listed, hg.text]
  | sel a n x p y =>
    cases n with
    | extract => rfl
    | «namespace» =>
      cases y with
      | atom a n t => cases n <;> simp [Expr.map, listed, hg.text]
      | _ => rfl
  | _ => rfl

theorem rootSuppressed_map (o : Opts) (es : Exprs) :
    rootSuppressed o (es.map g k) = rootSuppressed o es := by
  cases es with
  | nil => rfl
  | cons e es =>
    simp only [Exprs.map, rootSuppressed, Expr.ann_map, Ann.map]
    cases e.ann.leading with
    | nil => rfl
    | cons c cs => simp only [List.map_cons, List.any_cons, List.any_map, Function.comp_def, hg.comment]

end

mutual
theorem ordinary_map (hg : Still g k) : ∀ e : Expr, (e.map g k).ordinary o = e.ordinary o
  | .atom .. | .str .. => ordinaryAnn_map hg ..
  | .paren _ _ e _ | .unary _ _ e | .repeat_ _ _ e => by
    simp only [Expr.map, Expr.ordinary, ordinaryAnn_map hg, ordinary_map hg e]
  | .braced _ _ es _ => by simp only [Expr.map, Expr.ordinary, ordinaryAnn_map hg, ordinary_maps hg es]
  | .binary _ x _ y | .sel _ _ x _ y | .ite _ _ _ x _ y | .while_ _ _ _ x _ y => by
    simp only [Expr.map, Expr.ordinary, ordinaryAnn_map hg, ordinary_map hg x, ordinary_map hg y]
  | .call _ _ f _ _ xs _ => by
    simp only [Expr.map, Expr.ordinary, ordinaryAnn_map hg, ordinary_map hg f, ordinary_mapItems hg xs,
      listed_map hg]
  | .func _ _ _ _ xs _ b => by
    simp only [Expr.map, Expr.ordinary, ordinaryAnn_map hg, ordinary_map hg b, ordinary_mapItems hg xs]
  | .itee _ _ _ x _ y _ _ z | .for_ _ _ _ x _ y _ z => by
    simp only [Expr.map, Expr.ordinary, ordinaryAnn_map hg, ordinary_map hg x, ordinary_map hg y,
      ordinary_map hg z]
theorem ordinary_maps (hg : Still g k) : ∀ es : Exprs, (es.map g k).ordinary o = es.ordinary o
  | .nil => rfl
  | .cons e es => by simp only [Exprs.map, Exprs.ordinary, ordinary_map hg e, ordinary_maps hg es]
theorem ordinary_mapItems (hg : Still g k) : ∀ xs : Items, (xs.map g k).ordinary o = xs.ordinary o
  | .nil => rfl
  | .last x => by simp only [Items.map, Items.ordinary, ordinary_mapArg hg x]
  | .cons x _ xs => by
    simp only [Items.map, Items.ordinary, ordinary_mapArg hg x, ordinary_mapItems hg xs]
theorem ordinary_mapArg (hg : Still g k) : ∀ x : Arg, (x.map g k).ordinary o = x.ordinary o
  | .hole _ => ordinaryAnn_map hg ..
  | .val _ e => by simp only [Arg.map, Arg.ordinary, ordinaryAnn_map hg, ordinary_map hg e]
  | .name _ _ n _ => by simp only [Arg.map, Arg.ordinary, ordinaryAnn_map hg, ordinary_map hg n]
  | .named _ _ n _ e => by
    simp only [Arg.map, Arg.ordinary, ordinaryAnn_map hg, ordinary_map hg n, ordinary_map hg e]
  | .pdef _ n _ _ e => by
    simp only [Arg.map, Arg.ordinary, ordinaryAnn_map hg, ordinary_map hg n, ordinary_map hg e]
end

/-- Removing blanks changes nothing the formatter looks at. -/
theorem unblank_still : Still Token.unblank (fun c => c) where
  comment _ := rfl
  before _ := rfl
  after _ := rfl
  kind _ := rfl
  text _ := rfl
  lines t := by
    unfold linesBeforeToken Token.unblank
    dsimp only
    congr 2
    induction t.leading with
    | nil => rfl
    | cons p ps ih =>
      unfold unblank at ih ⊢
      cases h : p.kind <;> simp [List.filter_cons, List.takeWhile_cons, h, ih]
  newline t := by
    unfold leadingNewlineToken Token.unblank
    dsimp only
    induction t.leading with
    | nil => rfl
    | cons p ps ih =>
      unfold unblank at ih ⊢
      cases h : p.kind <;> simp_all [List.filter_cons]
  leading t := by
    unfold hasComment Token.unblank
    dsimp only
    induction t.leading with
    | nil => rfl
    | cons p ps ih =>
      unfold unblank at ih ⊢
      cases h : p.kind <;> simp_all [List.filter_cons]
  trailing t := by
    unfold hasComment Token.unblank
    dsimp only
    induction t.trailing with
    | nil => rfl
    | cons p ps ih =>
      unfold unblank at ih ⊢
      cases h : p.kind <;> simp_all [List.filter_cons]

end Verif.Format
