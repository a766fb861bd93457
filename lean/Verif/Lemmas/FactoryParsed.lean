import Verif.Lemmas.Factory
import Verif.Model.Pipeline
import Verif.Lemmas.Parsed

/-! # The factory on trees from the parser -/

namespace Verif.Whole
open Verif.Syntax Verif.Parser Verif.Format

/-! ## Loops -/

theorem bare_isName (e : Expr) : e.bare.isName = e.isName := by
  cases e with
  | atom a k t => cases k <;> rfl
  | _ => rfl

mutual
theorem bare_loops : ∀ e : Expr, e.bare.loops = e.loops
  | .atom .. => rfl
  | .str .. => rfl
  | .paren _ _ e _ => by simp [Expr.bare, Expr.loops, bare_loops e]
  | .braced _ _ es _ => by simp [Expr.bare, Expr.loops, bares_loops es]
  | .unary _ _ e => by simp [Expr.bare, Expr.loops, bare_loops e]
  | .binary _ x _ y => by simp [Expr.bare, Expr.loops, bare_loops x, bare_loops y]
  | .sel _ _ x _ y => by simp [Expr.bare, Expr.loops, bare_loops x, bare_loops y]
  | .call _ _ f _ _ items _ => by simp [Expr.bare, Expr.loops, bare_loops f, bareItems_loops items]
  | .func _ _ _ _ items _ b => by simp [Expr.bare, Expr.loops, bare_loops b, bareItems_loops items]
  | .ite _ _ _ c _ t => by simp [Expr.bare, Expr.loops, bare_loops c, bare_loops t]
  | .itee _ _ _ c _ t _ _ e => by simp [Expr.bare, Expr.loops, bare_loops c, bare_loops t, bare_loops e]
  | .for_ _ _ _ v _ s _ b => by simp [Expr.bare, Expr.loops, bare_isName v, bare_loops s, bare_loops b]
  | .while_ _ _ _ c _ b => by simp [Expr.bare, Expr.loops, bare_loops c, bare_loops b]
  | .repeat_ _ _ b => by simp [Expr.bare, Expr.loops, bare_loops b]
theorem bares_loops : ∀ es : Exprs, es.bare.loops = es.loops
  | .nil => rfl
  | .cons e es => by simp [Exprs.bare, Exprs.loops, bare_loops e, bares_loops es]
theorem bareItems_loops : ∀ xs : Items, xs.bare.loops = xs.loops
  | .nil => rfl
  | .last x => by simp [Items.bare, Items.loops, bareArg_loops x]
  | .cons x _ xs => by simp [Items.bare, Items.loops, bareArg_loops x, bareItems_loops xs]
theorem bareArg_loops : ∀ x : Arg, x.bare.loops = x.loops
  | .hole _ => rfl
  | .val _ e => by simp [Arg.bare, Arg.loops, bare_loops e]
  | .name _ _ n _ => by simp [Arg.bare, Arg.loops, bare_loops n]
  | .named _ _ n _ e => by simp [Arg.bare, Arg.loops, bare_loops n, bare_loops e]
  | .pdef _ n _ _ e => by simp [Arg.bare, Arg.loops, bare_loops n, bare_loops e]
end

theorem written_isName {text : List Byte} {v : Expr} {n : TsNode} (h : Written text v n)
    (hn : n.kind = .rIdentifier) : v.isName = true := by
  cases v with
  | atom a k t =>
    simp only [Written] at h
    rw [h.1] at hn
    subst hn; rfl
  | sel a k x o y => cases k <;> (simp only [Written] at h; rw [h.1] at hn; cases hn)
  | call a k f a' l items r => cases k <;> (simp only [Written] at h; rw [h.1] at hn; cases hn)
  | _ => simp only [Written] at h; rw [h.1] at hn; cases hn

mutual
theorem written_loops {text : List Byte} : ∀ (e : Expr) {n : TsNode}, Written text e n → e.loops = true
  | .atom .., _, _ => rfl
  | .str .., _, _ => rfl
  | .paren _ _ e _, n, h => by
    simp only [Written] at h
    obtain ⟨-, _, _, _, -, -, h1, -⟩ := h
    exact written_loops e h1
  | .braced _ _ es _, n, h => by
    simp only [Written] at h
    obtain ⟨-, _, _, _, -, -, h1, -⟩ := h
    exact writtens_loops es h1
  | .unary _ _ e, n, h => by
    simp only [Written] at h
    obtain ⟨-, _, _, -, -, h1⟩ := h
    exact written_loops e h1
  | .binary _ x _ y, n, h => by
    simp only [Written] at h
    obtain ⟨-, _, _, _, -, h1, -, h2⟩ := h
    simp [Expr.loops, written_loops x h1, written_loops y h2]
  | .sel _ _ x _ y, n, h => by
    simp only [Written] at h
    obtain ⟨-, _, _, _, -, h1, -, h2⟩ := h
    simp [Expr.loops, written_loops x h1, written_loops y h2]
  | .call _ _ f _ _ items _, n, h => by
    simp only [Written] at h
    obtain ⟨-, _, _, _, _, _, -, -, -, -, -, h1, -, -, h2, -⟩ := h
    simp [Expr.loops, written_loops f h1, writtenArgs_loops items h2]
  | .func _ _ _ _ items _ b, n, h => by
    simp only [Written] at h
    obtain ⟨-, _, _, _, _, _, _, -, -, h1, -, -, -, h2, -⟩ := h
    simp [Expr.loops, written_loops b h1, writtenPars_loops items h2]
  | .ite _ _ _ c _ t, n, h => by
    simp only [Written] at h
    obtain ⟨-, _, _, _, _, _, -, -, -, -, -, h1, -, -, h2⟩ := h
    simp [Expr.loops, written_loops c h1, written_loops t h2]
  | .itee _ _ _ c _ t _ _ e, n, h => by
    simp only [Written] at h
    obtain ⟨-, _, _, _, _, _, _, _, -, -, -, -, -, h1, -, -, h2, -, -, h3⟩ := h
    simp [Expr.loops, written_loops c h1, written_loops t h2, written_loops e h3]
  | .for_ _ _ _ v _ s _ b, n, h => by
    simp only [Written] at h
    obtain ⟨-, _, _, _, _, _, _, _, -, -, -, h0, h1, -, h2, -, h3⟩ := h
    simp [Expr.loops, written_isName h1 h0, written_loops s h2, written_loops b h3]
  | .while_ _ _ _ c _ b, n, h => by
    simp only [Written] at h
    obtain ⟨-, _, _, _, _, _, -, -, -, h1, -, h2⟩ := h
    simp [Expr.loops, written_loops c h1, written_loops b h2]
  | .repeat_ _ _ b, n, h => by
    simp only [Written] at h
    obtain ⟨-, _, _, -, -, h1⟩ := h
    exact written_loops b h1
theorem writtens_loops {text : List Byte} : ∀ (es : Exprs) {ns : List TsNode}, WrittenList text es ns →
    es.loops = true
  | .nil, _, _ => rfl
  | .cons e es, ns, h => by
    simp only [WrittenList] at h
    obtain ⟨_, _, -, h1, h2⟩ := h
    simp [Exprs.loops, written_loops e h1, writtens_loops es h2]
theorem writtenArgs_loops {text : List Byte} : ∀ (xs : Items) {first : Bool} {ns : List TsNode},
    WrittenArgs text first xs ns → xs.loops = true
  | .nil, _, _, _ => rfl
  | .last x, _, _, h => by
    simp only [WrittenArgs] at h
    exact writtenArg_loops x h.2
  | .cons x _ xs, _, _, h => by
    simp only [WrittenArgs] at h
    obtain ⟨_, _, _, -, h1, -, -, h2⟩ := h
    simp [Items.loops, writtenArg_loops x h1, writtenArgs_loops xs h2]
theorem writtenArg_loops {text : List Byte} : ∀ (x : Arg) {ns : List TsNode}, WrittenArg text x ns →
    x.loops = true
  | .hole _, _, _ => rfl
  | .val _ e, _, h => by
    simp only [WrittenArg] at h
    obtain ⟨_, _, -, -, -, h1⟩ := h
    exact written_loops e h1
  | .name _ _ n _, _, h => by
    simp only [WrittenArg] at h
    obtain ⟨_, _, _, -, -, -, h1, -⟩ := h
    exact written_loops n h1
  | .named _ _ n _ e, _, h => by
    simp only [WrittenArg] at h
    obtain ⟨_, _, _, _, -, -, -, h1, -, -, h2⟩ := h
    simp [Arg.loops, written_loops n h1, written_loops e h2]
  | .pdef .., _, h => by simp [WrittenArg] at h
theorem writtenPars_loops {text : List Byte} : ∀ (xs : Items) {ns : List TsNode},
    WrittenPars text xs ns → xs.loops = true
  | .nil, _, _ => rfl
  | .last x, _, h => by
    simp only [WrittenPars] at h
    obtain ⟨_, -, h1⟩ := h
    exact writtenPar_loops x h1
  | .cons x _ xs, _, h => by
    simp only [WrittenPars] at h
    obtain ⟨_, _, _, -, h1, -, h2⟩ := h
    simp [Items.loops, writtenPar_loops x h1, writtenPars_loops xs h2]
theorem writtenPar_loops {text : List Byte} : ∀ (x : Arg) {n : TsNode}, WrittenPar text x n →
    x.loops = true
  | .val _ e, _, h => by
    simp only [WrittenPar] at h
    obtain ⟨-, _, -, h1⟩ := h
    exact written_loops e h1
  | .pdef _ n _ _ e, _, h => by
    simp only [WrittenPar] at h
    obtain ⟨-, _, _, _, -, h1, -, -, h2⟩ := h
    simp [Arg.loops, written_loops n h1, written_loops e h2]
  | .hole .., _, h => by simp [WrittenPar] at h
  | .name .., _, h => by simp [WrittenPar] at h
  | .named .., _, h => by simp [WrittenPar] at h
end

/-! ## Comments are attached anew -/

mutual
theorem plainly_view : ∀ e : Expr, e.plainly.view = e.view
  | .atom .. => rfl
  | .str .. => rfl
  | .paren _ _ e _ => by simp [Expr.plainly, Expr.view, plainly_view e]
  | .braced _ _ es r => by simp [Expr.plainly, Expr.view, plainlys_view es]
  | .unary _ _ e => by simp [Expr.plainly, Expr.view, plainly_view e]
  | .binary _ x _ y => by simp [Expr.plainly, Expr.view, plainly_view x, plainly_view y]
  | .sel _ _ x _ y => by simp [Expr.plainly, Expr.view, plainly_view x, plainly_view y]
  | .call _ _ f _ _ items _ => by simp [Expr.plainly, Expr.view, plainly_view f, plainlyItems_view items]
  | .func _ _ _ _ items _ b => by simp [Expr.plainly, Expr.view, plainly_view b, plainlyItems_view items]
  | .ite _ _ _ c _ t => by simp [Expr.plainly, Expr.view, plainly_view c, plainly_view t]
  | .itee _ _ _ c _ t _ _ e => by
    simp [Expr.plainly, Expr.view, plainly_view c, plainly_view t, plainly_view e]
  | .for_ _ _ _ v _ s _ b => by
    simp [Expr.plainly, Expr.view, plainly_view v, plainly_view s, plainly_view b]
  | .while_ _ _ _ c _ b => by simp [Expr.plainly, Expr.view, plainly_view c, plainly_view b]
  | .repeat_ _ _ b => by simp [Expr.plainly, Expr.view, plainly_view b]
theorem plainlys_view : ∀ (es : Exprs) {r : Token}, es.plainly.view r = es.view r
  | .nil, _ => rfl
  | .cons e es, _ => by simp [Exprs.plainly, Exprs.view, plainly_view e, plainlys_view es]
theorem plainlyItems_view : ∀ (xs : Items) {c : Bool} {r : Token}, xs.plainly.view c r = xs.view c r
  | .nil, _, _ => rfl
  | .last x, _, _ => by simp [Items.plainly, Items.view, plainlyArg_view x]
  | .cons x _ xs, _, _ => by simp [Items.plainly, Items.view, plainlyArg_view x, plainlyItems_view xs]
theorem plainlyArg_view : ∀ (x : Arg) {c : Bool}, x.plainly.view c = x.view c
  | .hole _, _ => rfl
  | .val _ e, _ => by simp [Arg.plainly, Arg.view, plainly_view e]
  | .name _ _ n _, _ => by simp [Arg.plainly, Arg.view, plainly_view n]
  | .named _ _ n _ e, _ => by simp [Arg.plainly, Arg.view, plainly_view n, plainly_view e]
  | .pdef _ n _ _ e, _ => by simp [Arg.plainly, Arg.view, plainly_view n, plainly_view e]
end

mutual
theorem plainly_bare : ∀ e : Expr, e.plainly.bare = e.bare
  | .atom .. => rfl
  | .str .. => rfl
  | .paren _ _ e _ => by simp [Expr.plainly, Expr.bare, plainly_bare e]
  | .braced _ _ es r => by simp [Expr.plainly, Expr.bare, plainlys_bare es]
  | .unary _ _ e => by simp [Expr.plainly, Expr.bare, plainly_bare e]
  | .binary _ x _ y => by simp [Expr.plainly, Expr.bare, plainly_bare x, plainly_bare y]
  | .sel _ _ x _ y => by simp [Expr.plainly, Expr.bare, plainly_bare x, plainly_bare y]
  | .call _ _ f _ _ items _ => by simp [Expr.plainly, Expr.bare, plainly_bare f, plainlyItems_bare items]
  | .func _ _ _ _ items _ b => by simp [Expr.plainly, Expr.bare, plainly_bare b, plainlyItems_bare items]
  | .ite _ _ _ c _ t => by simp [Expr.plainly, Expr.bare, plainly_bare c, plainly_bare t]
  | .itee _ _ _ c _ t _ _ e => by
    simp [Expr.plainly, Expr.bare, plainly_bare c, plainly_bare t, plainly_bare e]
  | .for_ _ _ _ v _ s _ b => by
    simp [Expr.plainly, Expr.bare, plainly_bare v, plainly_bare s, plainly_bare b]
  | .while_ _ _ _ c _ b => by simp [Expr.plainly, Expr.bare, plainly_bare c, plainly_bare b]
  | .repeat_ _ _ b => by simp [Expr.plainly, Expr.bare, plainly_bare b]
theorem plainlys_bare : ∀ (es : Exprs), es.plainly.bare = es.bare
  | .nil => rfl
  | .cons e es => by simp [Exprs.plainly, Exprs.bare, plainly_bare e, plainlys_bare es]
theorem plainlyItems_bare : ∀ (xs : Items), xs.plainly.bare = xs.bare
  | .nil => rfl
  | .last x => by simp [Items.plainly, Items.bare, plainlyArg_bare x]
  | .cons x _ xs => by simp [Items.plainly, Items.bare, plainlyArg_bare x, plainlyItems_bare xs]
theorem plainlyArg_bare : ∀ (x : Arg), x.plainly.bare = x.bare
  | .hole _ => rfl
  | .val _ e => by simp [Arg.plainly, Arg.bare, plainly_bare e]
  | .name _ _ n _ => by simp [Arg.plainly, Arg.bare, plainly_bare n]
  | .named _ _ n _ e => by simp [Arg.plainly, Arg.bare, plainly_bare n, plainly_bare e]
  | .pdef _ n _ _ e => by simp [Arg.plainly, Arg.bare, plainly_bare n, plainly_bare e]
end

mutual
theorem plainly_tree : ∀ e : Expr, exprTree e.plainly = exprTree e
  | .atom .. => rfl
  | .str .. => rfl
  | .paren _ _ e _ => by simp [Expr.plainly, exprTree, plainly_tree e]
  | .braced _ _ es r => by simp [Expr.plainly, exprTree, plainlys_tree es]
  | .unary _ _ e => by simp [Expr.plainly, exprTree, plainly_tree e]
  | .binary _ x _ y => by simp [Expr.plainly, exprTree, plainly_tree x, plainly_tree y]
  | .sel _ _ x _ y => by simp [Expr.plainly, exprTree, plainly_tree x, plainly_tree y]
  | .call _ _ f _ _ items _ => by simp [Expr.plainly, exprTree, plainly_tree f, plainlyItems_tree items]
  | .func _ _ _ _ items _ b => by simp [Expr.plainly, exprTree, plainly_tree b, plainlyItems_tree items]
  | .ite _ _ _ c _ t => by simp [Expr.plainly, exprTree, plainly_tree c, plainly_tree t]
  | .itee _ _ _ c _ t _ _ e => by
    simp [Expr.plainly, exprTree, plainly_tree c, plainly_tree t, plainly_tree e]
  | .for_ _ _ _ v _ s _ b => by
    simp [Expr.plainly, exprTree, plainly_tree v, plainly_tree s, plainly_tree b]
  | .while_ _ _ _ c _ b => by simp [Expr.plainly, exprTree, plainly_tree c, plainly_tree b]
  | .repeat_ _ _ b => by simp [Expr.plainly, exprTree, plainly_tree b]
theorem plainlys_tree : ∀ es : Exprs, exprTrees es.plainly = exprTrees es
  | .nil => rfl
  | .cons e es => by simp [Exprs.plainly, exprTrees, plainly_tree e, plainlys_tree es]
theorem plainlyItems_tree : ∀ (xs : Items) {par : Bool}, itemTrees par xs.plainly = itemTrees par xs
  | .nil, _ => rfl
  | .last x, _ => by simp [Items.plainly, itemTrees, plainlyArg_tree x]
  | .cons x _ xs, _ => by simp [Items.plainly, itemTrees, plainlyArg_tree x, plainlyItems_tree xs]
theorem plainlyArg_tree : ∀ (x : Arg) {par : Bool}, argTree par x.plainly = argTree par x
  | .hole _, _ => rfl
  | .val _ e, _ => by simp [Arg.plainly, argTree, plainly_tree e]
  | .name _ _ n _, _ => by simp [Arg.plainly, argTree, plainly_tree n]
  | .named _ _ n _ e, _ => by simp [Arg.plainly, argTree, plainly_tree n, plainly_tree e]
  | .pdef _ n _ _ e, _ => by simp [Arg.plainly, argTree, plainly_tree n, plainly_tree e]
end

theorem plainlys_tokens (es : Exprs) : es.plainly.tokens = es.tokens := by
  rw [← exprTrees_tokens, ← exprTrees_tokens, plainlys_tree]

mutual
theorem plainly_annotate {P : List Placed} : ∀ (e : Expr) {r : Ref}, e.plainly.annotate P r = e.annotate P r
  | .atom .., _ => rfl
  | .str .., _ => rfl
  | .paren _ _ e _, _ => by simp [Expr.plainly, Expr.annotate, plainly_annotate e]
  | .braced _ _ es r, _ => by simp [Expr.plainly, Expr.annotate, plainlys_annotate es]
  | .unary _ _ e, _ => by simp [Expr.plainly, Expr.annotate, plainly_annotate e]
  | .binary _ x _ y, _ => by simp [Expr.plainly, Expr.annotate, plainly_annotate x, plainly_annotate y]
  | .sel _ _ x _ y, _ => by simp [Expr.plainly, Expr.annotate, plainly_annotate x, plainly_annotate y]
  | .call _ _ f _ _ items _, _ => by
    simp [Expr.plainly, Expr.annotate, plainly_annotate f, plainlyItems_annotate items]
  | .func _ _ _ _ items _ b, _ => by
    simp [Expr.plainly, Expr.annotate, plainly_annotate b, plainlyItems_annotate items]
  | .ite _ _ _ c _ t, _ => by simp [Expr.plainly, Expr.annotate, plainly_annotate c, plainly_annotate t]
  | .itee _ _ _ c _ t _ _ e, _ => by
    simp [Expr.plainly, Expr.annotate, plainly_annotate c, plainly_annotate t, plainly_annotate e]
  | .for_ _ _ _ v _ s _ b, _ => by
    simp [Expr.plainly, Expr.annotate, plainly_annotate v, plainly_annotate s, plainly_annotate b]
  | .while_ _ _ _ c _ b, _ => by simp [Expr.plainly, Expr.annotate, plainly_annotate c, plainly_annotate b]
  | .repeat_ _ _ b, _ => by simp [Expr.plainly, Expr.annotate, plainly_annotate b]
theorem plainlys_annotate {P : List Placed} : ∀ (es : Exprs) {r : Ref} {i : Nat},
    es.plainly.annotate P r i = es.annotate P r i
  | .nil, _, _ => rfl
  | .cons e es, _, _ => by simp [Exprs.plainly, Exprs.annotate, plainly_annotate e, plainlys_annotate es]
theorem plainlyItems_annotate {P : List Placed} : ∀ (xs : Items) {r : Ref} {i : Nat},
    xs.plainly.annotate P r i = xs.annotate P r i
  | .nil, _, _ => rfl
  | .last x, _, _ => by simp [Items.plainly, Items.annotate, plainlyArg_annotate x]
  | .cons x _ xs, _, _ => by
    simp [Items.plainly, Items.annotate, plainlyArg_annotate x, plainlyItems_annotate xs]
theorem plainlyArg_annotate {P : List Placed} : ∀ (x : Arg) {r : Ref}, x.plainly.annotate P r = x.annotate P r
  | .hole _, _ => rfl
  | .val _ e, _ => by simp [Arg.plainly, Arg.annotate, plainly_annotate e]
  | .name _ _ n _, _ => by simp [Arg.plainly, Arg.annotate, plainly_annotate n]
  | .named _ _ n _ e, _ => by simp [Arg.plainly, Arg.annotate, plainly_annotate n, plainly_annotate e]
  | .pdef _ n _ _ e, _ => by simp [Arg.plainly, Arg.annotate, plainly_annotate n, plainly_annotate e]
end

theorem plainly_attach (x : Root) : x.plainly.attach = x.attach := by
  have : x.plainly.placed = x.placed := by
    unfold Root.placed Root.view Root.plainly
    simp only [plainlys_view]
  unfold Root.attach
  rw [this]
  simp only [Root.plainly, plainlys_annotate]

/-! ## Kinds of nodes -/

mutual
/-- The factory knows the kinds of all nodes. -/
def Known : Tree → Prop
  | .token _ => True
  | .node k cs => isNodeKind k = true ∧ KnownList cs
def KnownList : List Tree → Prop
  | [] => True
  | c :: cs => Known c ∧ KnownList cs
end

theorem knownList_append : ∀ {xs ys : List Tree}, KnownList (xs ++ ys) ↔ KnownList xs ∧ KnownList ys
  | [], ys => by simp [KnownList]
  | x :: xs, ys => by simp [KnownList, knownList_append (xs := xs), and_assoc]

mutual
theorem known_slotted : ∀ t : Tree, Known t → t.slotted.isSome = true
  | .token _, _ => rfl
  | .node k cs, h => by
    simp only [Known] at h
    obtain ⟨ss, hs⟩ := Option.isSome_iff_exists.1 (knowns_slotted cs h.2)
    simp only [Tree.slotted, hs, Option.bind_some, makeSyntax, h.1, if_true]
    split <;> rfl
theorem knowns_slotted : ∀ ts : List Tree, KnownList ts → (Tree.slottedList ts).isSome = true
  | [], _ => rfl
  | t :: ts, h => by
    simp only [KnownList] at h
    obtain ⟨s, hs⟩ := Option.isSome_iff_exists.1 (known_slotted t h.1)
    obtain ⟨ss, hss⟩ := Option.isSome_iff_exists.1 (knowns_slotted ts h.2)
    simp [Tree.slottedList, hs, hss]
end

/-- Only nodes that the factory knows are started. -/
def KnownEvents (es : List Event) : Prop := ∀ k, Event.start k ∈ es → isNodeKind k = true

theorem known_classify {k : Kind} (h : classify k ≠ .token ∧ classify k ≠ .content ∧ classify k ≠ .comment ∧
    classify k ≠ .unreachable) : isNodeKind k = true := by
  cases k <;> first | rfl | (exfalso; revert h; decide)

theorem known_start {w : Walk} {k : Kind} (h : KnownEvents w.events) (hk : isNodeKind k = true) :
    KnownEvents (w.start k).events := by
  intro j hj
  simp only [Walk.start, List.mem_append, List.mem_cons, List.not_mem_nil, or_false, Event.start.injEq] at hj
  rcases hj with hj | rfl
  · exact h j hj
  · exact hk

theorem known_finish {w : Walk} (h : KnownEvents w.events) : KnownEvents w.finish.events := by
  intro j hj
  simp only [Walk.finish, List.mem_append, List.mem_cons, List.not_mem_nil, or_false, reduceCtorEq] at hj
  exact h j hj

theorem known_token {text : List Byte} {w w' : Walk} {k : Kind} {s e : Nat} (h : KnownEvents w.events)
    (ht : w.token text k s e = some w') : KnownEvents w'.events := by
  simp only [Walk.token, Option.map_eq_some_iff] at ht
  obtain ⟨p, -, rfl⟩ := ht
  intro j hj
  simp only [List.mem_append, List.mem_cons, List.not_mem_nil, or_false, reduceCtorEq] at hj
  exact h j hj

theorem known_before {l : Loop} {k : Kind} {f : Field} {w w' : Walk} (h : KnownEvents w.events)
    (hb : l.before k f w = some w') : KnownEvents w'.events := by
  have hh : KnownEvents w.hole.events := known_finish (known_start h rfl)
  unfold Loop.before at hb
  split at hb
  · cases hb; exact h
  · split at hb <;> first | (cases hb; exact h) | (cases hb; exact known_finish h) | cases hb
  · cases hb; split
    · exact known_start h rfl
    · exact h
  · cases hb; split
    · exact known_start h rfl
    · exact h
  · cases hb; split
    · exact known_finish h
    · exact h
  · cases hb; exact h
  · split at hb
    · cases hb; exact h
    · split at hb
      · cases hb
        split
        · exact known_finish hh
        · exact known_finish h
      · split at hb
        · cases hb
          split
          · exact hh
          · exact h
        · cases hb; exact h
        · cases hb; exact h
        · cases hb
  · cases hb; split
    · exact known_start h rfl
    · exact h

theorem known_after {l : Loop} {k : Kind} {w : Walk} (h : KnownEvents w.events) :
    KnownEvents (l.after k w).events := by
  unfold Loop.after
  split
  · split
    · exact known_start h rfl
    · exact h
  · split
    · exact known_start h rfl
    · exact h
  · split
    · exact known_start h rfl
    · exact h
  · split
    · exact known_finish h
    · exact h
  · exact h

theorem known_done {l : Loop} {w : Walk} (h : KnownEvents w.events) : KnownEvents (l.done w).events := by
  unfold Loop.done
  split
  · exact known_finish h
  · exact known_finish h
  · exact h

theorem known_delimiters {k : Kind} {p : Kind × Kind} (h : delimiters k = some p) : isNodeKind k = true := by
  cases k <;> first | rfl | (cases h; done)

mutual
theorem known_walk {text : List Byte} : ∀ (n : TsNode) {w w' : Walk}, KnownEvents w.events →
    walkNode text n w = some w' → KnownEvents w'.events
  | .mk k f s e cs, w, w', h, hw => by
    have kids : ∀ {l : Loop} {v v' : Walk}, KnownEvents v.events → walkKids text l cs v = some v' →
      KnownEvents v'.events := fun hv hv' => known_kids cs hv hv'
    have loop : ∀ {l : Loop} {c : Class}, classify k = c → c ≠ .token ∧ c ≠ .content ∧ c ≠ .comment ∧
        c ≠ .unreachable → ∀ {v : Walk}, walkKids text l cs (w.start k) = some v →
        KnownEvents v.finish.events := fun {_ _} hc hn {_} hv =>
      known_finish (kids (known_start h (known_classify (hc ▸ hn))) hv)
    unfold walkNode at hw
    split at hw <;> try simp only [Option.bind_eq_bind, Option.bind_eq_some_iff, Option.some.injEq] at hw
    · obtain ⟨v, h1, p, -, rfl⟩ := hw
      have := known_finish (kids (known_start (known_start h rfl) rfl) h1)
      exact known_finish (w := ⟨v.finish.events, p⟩) this
    · rename_i hc; obtain ⟨v, h1, rfl⟩ := hw; exact loop hc (by simp) h1
    · rename_i hc; obtain ⟨v, h1, rfl⟩ := hw; exact loop hc (by simp) h1
    · rename_i hc; obtain ⟨v, h1, rfl⟩ := hw; exact loop hc (by simp) h1
    · rename_i hc; obtain ⟨v, h1, rfl⟩ := hw; exact loop hc (by simp) h1
    · rename_i hc; obtain ⟨v, h1, rfl⟩ := hw; exact loop hc (by simp) h1
    · rename_i hc; obtain ⟨v, h1, rfl⟩ := hw; exact loop hc (by simp) h1
    · rename_i hc; obtain ⟨v, h1, rfl⟩ := hw; exact loop hc (by simp) h1
    · rename_i lit hc
      obtain ⟨v, h1, v', h2, rfl⟩ := hw
      exact known_finish (known_token (kids (known_start h (known_classify (by simp [hc]))) h1) h2)
    · rename_i lit hc
      obtain ⟨v', h2, rfl⟩ := hw
      exact known_finish (known_token (known_start h (known_classify (by simp [hc]))) h2)
    · exact known_token h hw
    · obtain ⟨v, h1, h2⟩ := hw
      exact known_token (kids h h1) h2
    · obtain ⟨v, h1, p, -, rfl⟩ := hw
      exact (kids h h1 : KnownEvents v.events)
    · cases hw
theorem known_kids {text : List Byte} : ∀ (cs : List TsNode) {l : Loop} {w w' : Walk}, KnownEvents w.events →
    walkKids text l cs w = some w' → KnownEvents w'.events
  | [], l, w, w', h, hw => by
    simp only [walkKids, Option.some.injEq] at hw
    subst hw
    exact known_done h
  | .mk k f s e cs :: rest, l, w, w', h, hw => by
    unfold walkKids at hw
    split at hw
    · simp only [Option.bind_eq_bind, Option.bind_eq_some_iff] at hw
      obtain ⟨⟨op, cl⟩, h1, v, h2, h3⟩ := hw
      exact known_kids rest (known_finish (known_kids cs (known_start h (known_delimiters h1)) h2)) h3
    · simp only [Option.bind_eq_bind, Option.bind_eq_some_iff] at hw
      obtain ⟨v, h1, u, h2, h3⟩ := hw
      exact known_kids rest (known_after (known_walk (.mk k f s e cs) (known_before h h1) h2)) h3
end

/-- The nodes under construction are known. -/
def KnownSink (s : Sink) : Prop :=
  KnownList s.done ∧ ∀ q ∈ s.stack, isNodeKind q.1 = true ∧ KnownList q.2

theorem known_push {s : Sink} {t : Tree} (h : KnownSink s) (ht : Known t) : KnownSink (s.push t) := by
  unfold Sink.push
  split
  · exact ⟨knownList_append.2 ⟨h.1, ht, trivial⟩, h.2⟩
  · rename_i k cs rest hs
    refine ⟨h.1, fun q hq => ?_⟩
    rcases List.mem_cons.1 hq with rfl | hq
    · have := h.2 (k, cs) (by rw [hs]; simp)
      exact ⟨this.1, knownList_append.2 ⟨this.2, ht, trivial⟩⟩
    · exact h.2 q (by rw [hs]; simp [hq])

theorem known_sinkToken {text : List Byte} {s s' : Sink} {k : Kind} {e : Nat} (h : KnownSink s)
    (ht : s.token text k e = some s') : KnownSink s' := by
  simp only [Sink.token, Option.bind_eq_bind, Option.bind_eq_some_iff, Option.some.injEq] at ht
  obtain ⟨⟨t, pos, ts⟩, -, rfl⟩ := ht
  exact known_push (s := { s with textPos := pos, trivia := ts, needsEof := _ }) h trivial

theorem known_event {text : List Byte} {s s' : Sink} {e : Event} (h : KnownSink s)
    (he : ∀ k, e = .start k → isNodeKind k = true) (ht : s.event text e = some s') : KnownSink s' := by
  cases e with
  | start k =>
    cases ht
    refine ⟨h.1, fun q hq => ?_⟩
    rcases List.mem_cons.1 hq with rfl | hq
    · exact ⟨he k rfl, trivial⟩
    · exact h.2 q hq
  | token k e => exact known_sinkToken h ht
  | finish =>
    have close : ∀ {v : Sink}, KnownSink v → (match v.stack with
        | [] => Option.none
        | (k, cs) :: rest => some ({ v with stack := rest }.push (.node k cs))) = some s' → KnownSink s' := by
      intro v hv h2
      split at h2
      · cases h2
      · rename_i k cs rest hs
        cases h2
        have := hv.2 (k, cs) (by rw [hs]; simp)
        refine known_push (s := { v with stack := rest })
          ⟨hv.1, fun q hq => hv.2 q (by rw [hs]; simp [hq])⟩ ?_
        exact this
    simp only [Sink.event, Option.bind_eq_bind] at ht
    split at ht
    · obtain ⟨v, h1, h2⟩ := Option.bind_eq_some_iff.1 ht
      exact close (known_sinkToken h h1) h2
    · exact close h ht

theorem known_events {text : List Byte} : ∀ {es : List Event} {s s' : Sink}, KnownSink s → KnownEvents es →
    es.foldlM (Sink.event text) s = some s' → KnownSink s'
  | [], s, s', h, _, hs => by
    simp only [List.foldlM_nil] at hs
    cases hs; exact h
  | e :: es, s, s', h, he, hs => by
    simp only [List.foldlM_cons, Option.bind_eq_bind, Option.bind_eq_some_iff] at hs
    obtain ⟨v, h1, h2⟩ := hs
    exact known_events (known_event h (fun k hk => he k (by simp [hk])) h1)
      (fun k hk => he k (List.mem_cons_of_mem _ hk)) h2

theorem known_built {text : List Byte} {es : List Event} {ts : List Trivia} {t : Tree} (he : KnownEvents es)
    (h : buildTree text es ts = some t) : Known t := by
  simp only [buildTree, Option.bind_eq_bind, Option.bind_eq_some_iff] at h
  obtain ⟨s, h1, h2⟩ := h
  have hs := known_events (s := ⟨0, ts, [], [], true⟩) ⟨trivial, nofun⟩ he h1
  split at h2
  · rename_i t' _ hd
    cases h2
    have := hs.1
    rw [hd] at this
    exact this.1
  · cases h2

theorem known_parse {text : List Byte} {root : TsNode} {err b : Bool} {t : Tree}
    (h : parse text root err = some (t, b)) : Known t := by
  unfold parse at h
  split at h <;> simp only [Option.bind_eq_bind, Option.bind_eq_some_iff, Option.some.injEq,
    Prod.mk.injEq] at h
  · obtain ⟨t', h1, rfl, -⟩ := h
    refine known_built ?_ h1
    intro k hk
    simp only [failureEvents, List.mem_cons, Event.start.injEq, reduceCtorEq, List.not_mem_nil, or_false,
      false_or] at hk
    rcases hk with rfl | rfl | rfl <;> rfl
  · obtain ⟨w, h1, t', h2, rfl, -⟩ := h
    exact known_built (known_walk root (w := Walk.new) (by intro k hk; cases hk) h1) h2

/-! ## Texts that R accepts -/

theorem parsed_plainly {text : List Byte} {root : TsNode} {p : Exprs} {x : Root} (h : Parsed text root p x) :
    Parsed text root p x.plainly := by
  have ht : allTokens x.plainly = allTokens x := by
    simp only [allTokens, Root.plainly, plainlys_tokens]
  refine ⟨?_, rfl, ?_, ?_, h.kind, h.empty, h.trailing, ht ▸ h.bytes, ht ▸ h.comments, ht ▸ h.pieces, ht ▸ h.lines,
    ht ▸ h.ends, ht ▸ h.unbroken, ht ▸ h.crisp, ht ▸ h.own⟩
  · rw [h.parse]; simp only [fileTree, Root.plainly, plainlys_tree]
  · simp only [Root.plainly, plainlys_bare, h.bare]
  · simp only [Root.plainly, plainlys_tokens, h.tokens]

theorem parsed_slots {text : List Byte} {root : TsNode} {p : Exprs} (ha : Agrees text root p)
    (hr : readText (lf text) = some p.bare) (hl : LineEnds text root) : ∃ x s, Parsed text root p x ∧
      (fileTree x).slotted = some s ∧ s.genuine ∧ castRoot s = some x := by
  obtain ⟨x, hx⟩ := parsed ha
  obtain ⟨-, hb, -, hg, -⟩ := parsed_program ha hr hl hx
  have hlo : x.es.loops = true := by
    rw [← bares_loops, hb, bares_loops]
    exact writtens_loops p ha.written.2
  obtain ⟨s, h1, h2, h3⟩ := shown_root hg hlo hx.kind
  refine ⟨x.plainly, s, parsed_plainly hx, ?_, h2, h3⟩
  rw [← h1]
  simp only [fileTree, Root.plainly, plainlys_tree]

theorem parsed_seen {text : List Byte} {root : TsNode} {p : Exprs} (ha : Agrees text root p)
    (hr : readText (lf text) = some p.bare) (hl : LineEnds text root) :
    ∃ x, Parsed text root p x ∧ seenRoot text root = some x := by
  obtain ⟨x, s, hx, h1, -, h3⟩ := parsed_slots ha hr hl
  exact ⟨x, hx, by simp [seenRoot, hx.parse, h1, h3]⟩

end Verif.Whole
