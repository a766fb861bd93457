import Verif.Spec.Written
import Verif.Lemmas.ParserTree
import Verif.Lemmas.ParserTrivia

/-! # Syntax trees of programs -/

namespace Verif.Whole
open Verif.Syntax Verif.Parser Verif.Format

/-! ## Leaving out comments -/

def flt (xs : List Item) : List Item := xs.filter (fun x => x.kind != .comment)

def Clean (xs : List Item) : Prop := ∀ x ∈ xs, x.kind = .comment → x.trees = []

theorem clean_none (cs : List TsNode) : Clean (items none cs) := by
  intro x hx hk
  obtain ⟨n, -, rfl⟩ := mem_items_none hx
  exact conv_comment hk

theorem flt_items (cs : List TsNode) : flt (items none cs) = items none (kids cs) := by
  induction cs with
  | nil => rfl
  | cons c cs ih =>
    rw [items_none_cons]
    unfold flt kids at *
    rw [List.filter_cons, List.filter_cons]
    by_cases h : c.kind = .comment
    · simp [h, ih]
    · simp [h, items_none_cons, ih]

theorem Clean.tail {x : Item} {xs : List Item} (h : Clean (x :: xs)) : Clean xs :=
  fun y hy => h y (List.mem_cons_of_mem _ hy)

theorem Clean.head {x : Item} {xs : List Item} (h : Clean (x :: xs)) (hk : x.kind = .comment) :
    x.trees = [] := h x (by simp) hk

theorem flt_cons_of {x : Item} {xs : List Item} (h : x.kind ≠ .comment) : flt (x :: xs) = x :: flt xs := by
  simp [flt, h]

theorem flt_cons_comment {x : Item} {xs : List Item} (h : x.kind = .comment) : flt (x :: xs) = flt xs := by
  simp [flt, h]

theorem all_flt {xs : List Item} (h : Clean xs) : Item.all xs = Item.all (flt xs) := by
  induction xs with
  | nil => rfl
  | cons x xs ih =>
    by_cases hk : x.kind = .comment
    · rw [flt_cons_comment hk, Item.all_cons, h.head hk, ih h.tail]; rfl
    · rw [flt_cons_of hk, Item.all_cons, Item.all_cons, ih h.tail]

theorem takeWhile_flt {k : Kind} (hk : k ≠ .comment) (xs : List Item) :
    (flt xs).takeWhile (fun x => x.kind != k) = flt (xs.takeWhile fun x => x.kind != k) := by
  induction xs with
  | nil => rfl
  | cons x xs ih =>
    by_cases hx : x.kind = .comment
    · have : (x.kind != k) = true := by rw [hx]; simpa using Ne.symm hk
      rw [flt_cons_comment hx, List.takeWhile_cons, if_pos this, flt_cons_comment hx, ih]
    · rw [flt_cons_of hx, List.takeWhile_cons, List.takeWhile_cons]
      split
      · rw [flt_cons_of hx, ih]
      · rfl

theorem dropWhile_flt {k : Kind} (hk : k ≠ .comment) (xs : List Item) :
    (flt xs).dropWhile (fun x => x.kind != k) = flt (xs.dropWhile fun x => x.kind != k) := by
  induction xs with
  | nil => rfl
  | cons x xs ih =>
    by_cases hx : x.kind = .comment
    · have : (x.kind != k) = true := by rw [hx]; simpa using Ne.symm hk
      rw [flt_cons_comment hx, List.dropWhile_cons, if_pos this, ih]
    · rw [flt_cons_of hx, List.dropWhile_cons, List.dropWhile_cons]
      split
      · exact ih
      · rw [flt_cons_of hx]

theorem dropWhile_head {k : Kind} {xs r : List Item} {x : Item}
    (h : xs.dropWhile (fun x => x.kind != k) = x :: r) : x.kind = k := by
  induction xs with
  | nil => cases h
  | cons y xs ih =>
    rw [List.dropWhile_cons] at h
    split at h
    · exact ih h
    · next hy => cases h; simpa using hy

theorem clean_take {p : Item → Bool} {xs : List Item} (h : Clean xs) : Clean (xs.takeWhile p) :=
  fun x hx => h x ((List.takeWhile_sublist p).subset hx)

theorem clean_drop {p : Item → Bool} {xs : List Item} (h : Clean xs) : Clean (xs.dropWhile p) :=
  fun x hx => h x ((List.dropWhile_sublist p).subset hx)

theorem clauseFrom_flt {k : Kind} (clause : Kind) (hk : k ≠ .comment) {xs : List Item} (h : Clean xs) :
    clauseFrom k clause xs = clauseFrom k clause (flt xs) := by
  unfold clauseFrom
  rw [takeWhile_flt hk, dropWhile_flt hk, ← all_flt (clean_take h)]
  congr 1
  have hc := clean_drop (p := fun x => x.kind != k) h
  cases hd : xs.dropWhile (fun x => x.kind != k) with
  | nil => rfl
  | cons x r =>
    rw [hd] at hc
    have hx : x.kind ≠ .comment := by rw [dropWhile_head hd]; exact hk
    have := all_flt hc
    rw [flt_cons_of hx] at this ⊢
    simp only [this]

theorem clauseUpTo_flt {k : Kind} (clause : Kind) (hk : k ≠ .comment) {xs : List Item} (h : Clean xs) :
    clauseUpTo k clause xs = clauseUpTo k clause (flt xs) := by
  unfold clauseUpTo
  rw [takeWhile_flt hk, dropWhile_flt hk, ← all_flt (clean_take h), ← all_flt h]
  have hc := clean_drop (p := fun x => x.kind != k) h
  cases hd : xs.dropWhile (fun x => x.kind != k) with
  | nil => rfl
  | cons x r =>
    rw [hd] at hc
    have hx : x.kind ≠ .comment := by rw [dropWhile_head hd]; exact hk
    rw [flt_cons_of hx]
    simp only [all_flt hc.tail]

theorem argOf_flt {g : List Item} (h : Clean g) : argOf g = argOf (flt g) := by
  unfold argOf
  have : g.any (fun x => x.kind == .rArgument) = (flt g).any (fun x => x.kind == .rArgument) := by
    clear h
    induction g with
    | nil => rfl
    | cons x g ih =>
      by_cases hk : x.kind = .comment
      · rw [flt_cons_comment hk, List.any_cons, ih, hk]; rfl
      · rw [flt_cons_of hk, List.any_cons, List.any_cons, ih]
  rw [this, all_flt h]

theorem groups_flt (xs : List Item) :
    groups (flt xs) = (flt (groups xs).1, (groups xs).2.map fun p => (p.1, flt p.2)) := by
  induction xs with
  | nil => rfl
  | cons x xs ih =>
    by_cases hk : x.kind = .comment
    · have : x.kind ≠ .comma := by rw [hk]; decide
      rw [flt_cons_comment hk, groups, if_neg this, ih]
      simp only
      rw [flt_cons_comment hk]
    · rw [flt_cons_of hk, groups, groups, ih]
      split
      · rfl
      · simp only
        rw [flt_cons_of hk]

theorem groups_sub (xs : List Item) : (∀ x ∈ (groups xs).1, x ∈ xs) ∧
    ∀ p ∈ (groups xs).2, ∀ x ∈ p.2, x ∈ xs := by
  induction xs with
  | nil => simp [groups]
  | cons x xs ih =>
    rw [groups]
    split
    · refine ⟨by simp, ?_⟩
      intro p hp
      rcases List.mem_cons.1 hp with rfl | hp
      · exact fun y hy => List.mem_cons_of_mem _ (ih.1 y hy)
      · exact fun y hy => List.mem_cons_of_mem _ (ih.2 p hp y hy)
    · refine ⟨?_, fun p hp y hy => List.mem_cons_of_mem _ (ih.2 p hp y hy)⟩
      intro y hy
      rcases List.mem_cons.1 hy with rfl | hy
      · simp
      · exact List.mem_cons_of_mem _ (ih.1 y hy)

theorem all_comments_flt (xs : List Item) :
    xs.all (fun x => x.kind == .comment) = (flt xs).all (fun x => x.kind == .comment) := by
  induction xs with
  | nil => rfl
  | cons x xs ih =>
    by_cases hk : x.kind = .comment
    · rw [flt_cons_comment hk, List.all_cons, ih, hk]; rfl
    · rw [flt_cons_of hk, List.all_cons, List.all_cons, ih]

theorem argList_flt {xs : List Item} (h : Clean xs) : argList xs = argList (flt xs) := by
  unfold argList
  rw [groups_flt, ← all_comments_flt]
  simp only [List.map_map]
  obtain ⟨h1, h2⟩ := groups_sub xs
  rw [argOf_flt fun x hx => h x (h1 x hx)]
  congr 2
  congr 1
  apply List.map_congr_left
  intro p hp
  simp only [Function.comp]
  rw [argOf_flt fun x hx => h x (h2 p hp x hx)]

/-! ## What nodes become -/

theorem conv_node {n : TsNode} (h : classify n.kind = .node) :
    conv n = [.node n.kind (Item.all (items none (kids n.children)))] := by
  obtain ⟨k, f, s, e, cs⟩ := n
  have h : classify k = .node := h
  rw [conv, h]
  simp only [TsNode.kind, TsNode.children]
  rw [all_flt (clean_none cs), flt_items]

theorem conv_if {n : TsNode} (h : n.kind = .rIfStatement) :
    conv n = [.node .rIfStatement (clauseFrom .elseKw .rElseClause (items none (kids n.children)))] := by
  obtain ⟨k, f, s, e, cs⟩ := n
  obtain rfl : k = .rIfStatement := h
  rw [conv]
  simp only [classify, TsNode.children]
  rw [clauseFrom_flt _ (by decide) (clean_none cs), flt_items]

theorem conv_parameter {n : TsNode} (h : n.kind = .rParameter) :
    conv n = [.node .rParameter (clauseFrom .equal .rParameterDefault (items none (kids n.children)))] := by
  obtain ⟨k, f, s, e, cs⟩ := n
  obtain rfl : k = .rParameter := h
  rw [conv]
  simp only [classify, TsNode.children]
  rw [clauseFrom_flt _ (by decide) (clean_none cs), flt_items]

theorem conv_arg_kids {n : TsNode} (h : n.kind = .rArgument) :
    conv n = [.node .rArgument (clauseUpTo .equal .rArgumentNameClause (items none (kids n.children)))] := by
  obtain ⟨k, f, s, e, cs⟩ := n
  obtain rfl : k = .rArgument := h
  rw [conv]
  simp only [classify, TsNode.children]
  rw [clauseUpTo_flt _ (by decide) (clean_none cs), flt_items]

theorem enclosed_eq (k : Kind) (inner : List Item → List PTree) (l r : TsNode) (mid : List TsNode) :
    enclosed k inner (items none (l :: (mid ++ [r]))) =
      conv l ++ .node k (inner (items none mid)) :: conv r := by
  rw [items_none_cons, items_append, enclosed]
  have : items none [r] = [⟨r.kind, conv r⟩] := by rw [items_none_cons]; rfl
  rw [this, List.dropLast_concat]
  simp [Item.all]

theorem conv_braced {n l r : TsNode} {mid : List TsNode} (h : n.kind = .rBracedExpressions)
    (hc : n.children = l :: (mid ++ [r])) :
    conv n = [.node .rBracedExpressions (conv l ++
      .node .rExpressionList (Item.all (items none (kids mid))) :: conv r)] := by
  obtain ⟨k, f, s, e, cs⟩ := n
  obtain rfl : k = .rBracedExpressions := h
  obtain rfl : cs = _ := hc
  rw [conv]
  simp only [classify]
  rw [enclosed_eq, all_flt (clean_none mid), flt_items]

theorem conv_parameters {n l r : TsNode} {mid : List TsNode} (h : n.kind = .rParameters)
    (hc : n.children = l :: (mid ++ [r])) :
    conv n = [.node .rParameters (conv l ++
      .node .rParameterList (Item.all (items none (kids mid))) :: conv r)] := by
  obtain ⟨k, f, s, e, cs⟩ := n
  obtain rfl : k = .rParameters := h
  obtain rfl : cs = _ := hc
  rw [conv]
  simp only [classify]
  rw [enclosed_eq, all_flt (clean_none mid), flt_items]

theorem items_call_plain (args : Kind) {c : TsNode} (cs : List TsNode) (h : c.field ≠ .arguments) :
    items (some args) (c :: cs) = ⟨c.kind, conv c⟩ :: items (some args) cs := by
  obtain ⟨k, f, s, e, ds⟩ := c
  rw [items]
  · rfl
  · intro a h1 h2; exact h h2

theorem items_call_args (args : Kind) {c l r : TsNode} {mid : List TsNode} (cs : List TsNode)
    (h : c.field = .arguments) (hc : c.children = l :: (mid ++ [r])) :
    items (some args) (c :: cs) = ⟨c.kind, [.node args (conv l ++
      .node .rArgumentList (argList (items none (kids mid))) :: conv r)]⟩ :: items (some args) cs := by
  obtain ⟨k, f, s, e, ds⟩ := c
  obtain rfl : f = .arguments := h
  obtain rfl : ds = _ := hc
  rw [items, enclosed_eq, argList_flt (clean_none mid), flt_items]
  rfl

theorem all_call_kids (args : Kind) (cs : List TsNode)
    (h : ∀ c ∈ cs, c.kind = .comment → c.field ≠ .arguments) :
    Item.all (items (some args) cs) = Item.all (items (some args) (kids cs)) := by
  induction cs with
  | nil => rfl
  | cons c cs ih =>
    have ih := ih fun c hc => h c (List.mem_cons_of_mem _ hc)
    unfold kids at ih ⊢
    rw [List.filter_cons]
    by_cases hk : c.kind = .comment
    · rw [items_call_plain args cs (h c (by simp) hk), Item.all_cons, conv_comment hk, ih]
      simp [hk]
    · have : (c.kind != .comment) = true := by simpa using hk
      rw [if_pos this]
      by_cases hf : c.field = .arguments
      · obtain ⟨k, f, s, e, ds⟩ := c
        obtain rfl : f = .arguments := hf
        rw [items, items, Item.all_cons, Item.all_cons, ih]
      · rw [items_call_plain args _ hf, items_call_plain args _ hf, Item.all_cons, Item.all_cons, ih]

theorem conv_call_kids {n f a l r : TsNode} {mid : List TsNode} (ck : CallKind) (h : n.kind = callKind ck)
    (hk : kids n.children = [f, a])
    (hn : ∀ c ∈ n.children, c.kind = .comment → c.field ≠ .arguments) (hf : f.field ≠ .arguments)
    (ha : a.field = .arguments) (hc : a.children = l :: (mid ++ [r])) :
    conv n = [.node (callKind ck) (conv f ++ [.node (argsKind ck) (conv l ++
      .node .rArgumentList (argList (items none (kids mid))) :: conv r)])] := by
  obtain ⟨k, f', s, e, cs⟩ := n
  obtain rfl : k = callKind ck := h
  have hcl : classify (callKind ck) = .call (argsKind ck) := by cases ck <;> rfl
  rw [conv, hcl]
  simp only [TsNode.children] at hk hn
  simp only
  rw [all_call_kids _ _ hn, hk, items_call_plain _ _ hf, items_call_args _ _ ha hc, Item.all_cons,
    Item.all_cons, items]
  simp

theorem IsTok.conv {text : List Byte} {n : TsNode} {t : Token} (h : IsTok text n t) :
    Verif.Parser.conv n = [.tok t.kind n.stop] := by
  obtain ⟨k, f, s, e, cs⟩ := n
  obtain ⟨h1, h2, -⟩ := h
  have h1 : k = t.kind := h1
  rw [Verif.Parser.conv]
  have h2 : classify k = .token ∨ classify k = .content := h2
  subst h1
  rcases h2 with h2 | h2 <;> simp only [h2, TsNode.stop]

/-! ## Alike -/

def kt (t : Token) : Kind × List Byte := (t.kind, t.text)

/-- The tokens are equally many; if they agree then `P`. -/
def Alike (as bs : List Token) (P : Prop) : Prop :=
  as.length = bs.length ∧ (as.map kt = bs.map kt → P)

theorem bareTok_kt {u t : Token} (h : kt u = kt t) : bareTok u = bareTok t := by
  have h1 : u.kind = t.kind := congrArg Prod.fst h
  have h2 : u.text = t.text := congrArg Prod.snd h
  simp only [bareTok, outTok, h1, h2]

theorem alike_cons {u t : Token} {as bs : List Token} {P : Prop} (h : Alike as bs P) :
    Alike (u :: as) (t :: bs) (bareTok u = bareTok t ∧ P) := by
  refine ⟨by simp [h.1], fun he => ?_⟩
  simp only [List.map_cons, List.cons.injEq] at he
  exact ⟨bareTok_kt he.1, h.2 he.2⟩

theorem alike_nil : Alike [] [] True := ⟨rfl, fun _ => trivial⟩

theorem alike_append {a b c d : List Token} {P Q : Prop} (h1 : Alike a b P) (h2 : Alike c d Q) :
    Alike (a ++ c) (b ++ d) (P ∧ Q) := by
  refine ⟨by simp [h1.1, h2.1], fun he => ?_⟩
  rw [List.map_append, List.map_append] at he
  obtain ⟨e1, e2⟩ := List.append_inj he (by simp [h1.1])
  exact ⟨h1.2 e1, h2.2 e2⟩

theorem Alike.imp {a b : List Token} {P Q : Prop} (h : Alike a b P) (hpq : P → Q) : Alike a b Q :=
  ⟨h.1, fun he => hpq (h.2 he)⟩

/-! ## Fitting -/

theorem fits_app {a b : List PTree} {ds : List Tree} (h : FitsList (a ++ b) ds) :
    ∃ d1 d2, ds = d1 ++ d2 ∧ FitsList a d1 ∧ FitsList b d2 := by
  induction a generalizing ds with
  | nil => exact ⟨[], ds, rfl, trivial, h⟩
  | cons p a ih =>
    cases ds with
    | nil => exact h.elim
    | cons d ds =>
      obtain ⟨d1, d2, rfl, h1, h2⟩ := ih h.2
      exact ⟨d :: d1, d2, rfl, ⟨h.1, h1⟩, h2⟩

theorem fits_node {k : Kind} {ps : List PTree} {r : List PTree} {ds : List Tree}
    (h : FitsList (.node k ps :: r) ds) :
    ∃ cs ds', ds = .node k cs :: ds' ∧ FitsList ps cs ∧ FitsList r ds' := by
  cases ds with
  | nil => exact h.elim
  | cons d ds =>
    cases d with
    | token t => exact h.1.elim
    | node k' cs =>
      obtain ⟨⟨rfl, h1⟩, h2⟩ := h
      exact ⟨cs, ds, rfl, h1, h2⟩

theorem fits_nil_iff {ds : List Tree} (h : FitsList [] ds) : ds = [] := by
  cases ds with
  | nil => rfl
  | cons d ds => exact h.elim

theorem fits_leaf {text : List Byte} {n : TsNode} {t : Token} (ht : IsTok text n t) {r : List PTree}
    {ds : List Tree} (h : FitsList (conv n ++ r) ds) :
    ∃ u ds', ds = .token u :: ds' ∧ u.kind = t.kind ∧ FitsList r ds' := by
  rw [ht.conv] at h
  cases ds with
  | nil => exact h.elim
  | cons d ds =>
    cases d with
    | token u => exact ⟨u, ds, rfl, h.1, h.2⟩
    | node k' cs => exact h.1.elim

theorem all_cons_node (n : TsNode) (ns : List TsNode) :
    Item.all (items none (n :: ns)) = conv n ++ Item.all (items none ns) := by
  rw [items_none_cons, Item.all_cons]

theorem all_nil_node : Item.all (items none []) = [] := rfl

theorem conv_value {n : TsNode} {k : Kind} (h : classify n.kind = .value k ∨ classify n.kind = .atom k) :
    conv n = [.node n.kind [.tok k n.stop]] := by
  obtain ⟨k', f, s, e, cs⟩ := n
  have h : classify k' = .value k ∨ classify k' = .atom k := h
  rw [conv]
  rcases h with h | h <;> simp only [h, TsNode.kind, TsNode.stop]

/-- Kinds of nodes that are expressions. -/
def exprKind (k : Kind) : Prop :=
  k ≠ .elseKw ∧ k ≠ .equal ∧ k ≠ .comma ∧ k ≠ .comment ∧ k ≠ .rArgument

theorem written_kind {text : List Byte} {x : Expr} {n : TsNode} (h : Written text x n) :
    exprKind n.kind := by
  cases x <;> simp only [Written] at h
  case atom a k t =>
    obtain ⟨rfl, h⟩ := h
    rcases h with ⟨h, -⟩ | ⟨h, -⟩
    · revert h
      cases n.kind <;> simp [classify, exprKind]
    · rw [h]; simp [exprKind]
  case call => rw [h.1]; rename_i k _ _ _ _ _; cases k <;> simp [exprKind, callKind]
  case sel => rw [h.1]; rename_i k _ _ _; cases k <;> simp [exprKind, selKind]
  all_goals rw [h.1]; simp [exprKind]

theorem while_whole {k : Kind} {xs : List Item} (h : ∀ x ∈ xs, x.kind ≠ k) :
    xs.takeWhile (fun x => x.kind != k) = xs ∧ xs.dropWhile (fun x => x.kind != k) = [] := by
  induction xs with
  | nil => exact ⟨rfl, rfl⟩
  | cons x xs ih =>
    have hx : (x.kind != k) = true := by simpa using h x (by simp)
    have := ih fun y hy => h y (by simp [hy])
    rw [List.takeWhile_cons, List.dropWhile_cons, if_pos hx, if_pos hx, this.1, this.2]
    exact ⟨rfl, rfl⟩

theorem clauseFrom_none {k clause : Kind} {xs : List Item} (h : ∀ x ∈ xs, x.kind ≠ k) :
    clauseFrom k clause xs = Item.all xs := by
  unfold clauseFrom
  rw [(while_whole h).1, (while_whole h).2]; simp

theorem while_split {k : Kind} {xs ys : List Item} {y : Item} (h : ∀ x ∈ xs, x.kind ≠ k)
    (hy : y.kind = k) : (xs ++ y :: ys).takeWhile (fun x => x.kind != k) = xs ∧
      (xs ++ y :: ys).dropWhile (fun x => x.kind != k) = y :: ys := by
  constructor
  · rw [List.takeWhile_append_of_pos (by intro x hx; simpa using h x hx), List.takeWhile_cons, if_neg (by simp [hy])]
    simp
  · rw [List.dropWhile_append_of_pos (by intro x hx; simpa using h x hx), List.dropWhile_cons, if_neg (by simp [hy])]

theorem clauseFrom_some {k clause : Kind} {xs ys : List Item} {y : Item} (h : ∀ x ∈ xs, x.kind ≠ k)
    (hy : y.kind = k) :
    clauseFrom k clause (xs ++ y :: ys) = Item.all xs ++ [.node clause (Item.all (y :: ys))] := by
  unfold clauseFrom
  rw [(while_split h hy).1, (while_split h hy).2]

theorem clauseUpTo_none {k clause : Kind} {xs : List Item} (h : ∀ x ∈ xs, x.kind ≠ k) :
    clauseUpTo k clause xs = Item.all xs := by
  unfold clauseUpTo
  rw [(while_whole h).2]

theorem clauseUpTo_some {k clause : Kind} {xs ys : List Item} {y : Item} (h : ∀ x ∈ xs, x.kind ≠ k)
    (hy : y.kind = k) :
    clauseUpTo k clause (xs ++ y :: ys) = .node clause (Item.all xs ++ y.trees) :: Item.all ys := by
  unfold clauseUpTo
  rw [(while_split h hy).2]
  simp only [(while_split h hy).1]

theorem IsTok.kind_eq {text : List Byte} {n : TsNode} {t : Token} (h : IsTok text n t) : n.kind = t.kind :=
  h.1

theorem all_cons_app (n : TsNode) (ns : List TsNode) (r : List PTree) :
    Item.all (items none (n :: ns)) ++ r = conv n ++ (Item.all (items none ns) ++ r) := by
  rw [all_cons_node, List.append_assoc]

/-- Like the expression `x`, as far as the tokens agree. -/
def LikeExpr (x : Expr) (y : Expr) : Prop := Alike y.tokens x.tokens (y.bare = x.bare)
def LikeExprs (x : Exprs) (y : Exprs) : Prop := Alike y.tokens x.tokens (y.bare = x.bare)
def LikeItems (x : Items) (y : Items) : Prop := Alike y.tokens x.tokens (y.bare = x.bare)
def LikeArg (x : Arg) (y : Arg) : Prop := Alike y.tokens x.tokens (y.bare = x.bare)

theorem alike_one (u t : Token) : Alike [u] [t] (bareTok u = bareTok t) :=
  (alike_cons alike_nil).imp And.left

theorem fits_append {a b : List PTree} {ds es : List Tree} (h1 : FitsList a ds) (h2 : FitsList b es) :
    FitsList (a ++ b) (ds ++ es) := by
  induction a generalizing ds with
  | nil => rw [fits_nil_iff h1]; exact h2
  | cons p a ih =>
    cases ds with
    | nil => exact h1.elim
    | cons d ds => exact ⟨h1.1, ih h1.2⟩

theorem written_none {text : List Byte} {x : Expr} {n : TsNode} (h : Written text x n) (k : Kind)
    (hk : k = .elseKw ∨ k = .equal) : n.kind ≠ k := by
  have := written_kind h
  rcases hk with rfl | rfl
  · exact this.1
  · exact this.2.1

theorem groups_arg {text : List Byte} {x : Arg} {ns : List TsNode} (h : WrittenArg text x ns) :
    ∀ y ∈ items none ns, y.kind ≠ .comma ∧ y.kind ≠ .comment := by
  cases x <;> simp only [WrittenArg] at h
  case hole => subst h; intro y hy; cases hy
  all_goals
    obtain ⟨a, h⟩ := h
    have hns : ns = [a] ∧ a.kind = .rArgument := by
      first
      | (obtain ⟨_, h1, h2, _⟩ := h; exact ⟨h1, h2⟩)
      | (obtain ⟨_, _, h1, h2, _⟩ := h; exact ⟨h1, h2⟩)
      | (obtain ⟨_, _, _, h1, h2, _⟩ := h; exact ⟨h1, h2⟩)
    obtain ⟨rfl, hk⟩ := hns
    intro y hy
    rw [items_none_cons] at hy
    rcases List.mem_cons.1 hy with rfl | hy
    · simp only [hk]; exact ⟨nofun, nofun⟩
    · cases hy

theorem groups_none {xs : List Item} (h : ∀ x ∈ xs, x.kind ≠ .comma) : groups xs = (xs, []) := by
  induction xs with
  | nil => rfl
  | cons x xs ih =>
    rw [groups, if_neg (h x (by simp)), ih fun y hy => h y (by simp [hy])]

theorem groups_split {xs ys : List Item} {c : Item} (h : ∀ x ∈ xs, x.kind ≠ .comma) (hc : c.kind = .comma) :
    groups (xs ++ c :: ys) = (xs, (c, (groups ys).1) :: (groups ys).2) := by
  induction xs with
  | nil => rw [List.nil_append, groups, if_pos hc]
  | cons x xs ih =>
    rw [List.cons_append, groups, if_neg (h x (by simp)), ih fun y hy => h y (by simp [hy])]

/-- The arguments of the groups of items. -/
def argGroups (xs : List Item) : List PTree :=
  argOf (groups xs).1 ++ ((groups xs).2.map fun p => p.1.trees ++ argOf p.2).flatten

theorem argGroups_split {xs ys : List Item} {c : Item} (h : ∀ x ∈ xs, x.kind ≠ .comma) (hc : c.kind = .comma) :
    argGroups (xs ++ c :: ys) = argOf xs ++ (c.trees ++ argGroups ys) := by
  unfold argGroups
  rw [groups_split h hc]
  simp

theorem argGroups_none {xs : List Item} (h : ∀ x ∈ xs, x.kind ≠ .comma) : argGroups xs = argOf xs := by
  unfold argGroups
  rw [groups_none h]
  simp

theorem argList_groups {xs : List Item} (h : ∃ x ∈ xs, x.kind ≠ .comment) : argList xs = argGroups xs := by
  unfold argList argGroups
  rw [if_neg]
  obtain ⟨x, hx, hk⟩ := h
  intro hall
  rw [List.all_eq_true] at hall
  exact hk (by simpa using hall x hx)

theorem writtenArg_node {text : List Byte} {x : Arg} {ns : List TsNode} (hh : x.isHole = false)
    (h : WrittenArg text x ns) : ∃ a, ns = [a] ∧ a.kind = .rArgument := by
  cases x <;> simp only [WrittenArg] at h
  case hole => exact absurd hh (by simp [Arg.isHole])
  case val => obtain ⟨a, _, h1, h2, _⟩ := h; exact ⟨a, h1, h2⟩
  case name => obtain ⟨a, _, _, h1, h2, _⟩ := h; exact ⟨a, h1, h2⟩
  case named => obtain ⟨a, _, _, _, h1, h2, _⟩ := h; exact ⟨a, h1, h2⟩

theorem argOf_node {n : TsNode} (h : n.kind = .rArgument) : argOf (items none [n]) = conv n := by
  rw [items_none_cons]
  unfold argOf
  simp [h, items, Item.all]

mutual
theorem fit_expr {text : List Byte} : ∀ (x : Expr) {n : TsNode} {r : List PTree} {ds : List Tree},
    Written text x n → FitsList (conv n ++ r) ds →
    ∃ y ds', ds = exprTree y :: ds' ∧ LikeExpr x y ∧ FitsList r ds'
  | .atom a k t, n, r, ds, hw, h => by
    simp only [Written] at hw
    obtain ⟨hk, hw | hw⟩ := hw
    · rw [← hk] at hw
      rw [conv_value hw.1] at h
      obtain ⟨cs, ds', rfl, h1, h2⟩ := fits_node h
      cases cs with
      | nil => exact h1.elim
      | cons c cs =>
        have := fits_nil_iff h1.2
        subst this
        cases c with
        | node => exact h1.1.elim
        | token u =>
          refine ⟨.atom {} n.kind u, ds', rfl, (alike_one u t).imp fun hu => ?_, h2⟩
          simp only [Expr.bare, hu, hk]
    · obtain ⟨rfl, c, hc, ht⟩ := hw
      rw [conv_node (by rw [hk]; rfl), hc, all_cons_node, all_nil_node, hk] at h
      obtain ⟨cs, ds', rfl, h1, h2⟩ := fits_node h
      obtain ⟨u, e, rfl, -, h1⟩ := fits_leaf ht h1
      rw [fits_nil_iff h1]
      refine ⟨.atom {} .rNaExpression u, ds', rfl, (alike_one u t).imp fun hu => ?_, h2⟩
      simp only [Expr.bare, hu]
  | .str a o c l, n, r, ds, hw, h => by
    simp only [Written] at hw
    obtain ⟨hk, o', c', l', hc, ho, hl, hm⟩ := hw
    rw [conv_node (by rw [hk]; rfl), hc, all_cons_node, hk] at h
    obtain ⟨cs, ds', rfl, h1, h2⟩ := fits_node h
    obtain ⟨u, e, rfl, -, h1⟩ := fits_leaf ho h1
    cases c with
    | none =>
      obtain rfl : c' = [] := hm
      rw [List.nil_append, all_cons_node, all_nil_node] at h1
      obtain ⟨v, e, rfl, -, h1⟩ := fits_leaf hl h1
      rw [fits_nil_iff h1]
      refine ⟨.str {} u none v, ds', rfl, (alike_cons (alike_one v l)).imp fun hu => ?_, h2⟩
      simp only [Expr.bare, hu, Option.map_none]
    | some t =>
      obtain ⟨m, rfl, hm⟩ := hm
      rw [List.cons_append, List.nil_append, all_cons_node, all_cons_node, all_nil_node] at h1
      obtain ⟨w, e, rfl, -, h1⟩ := fits_leaf hm h1
      obtain ⟨v, e, rfl, -, h1⟩ := fits_leaf hl h1
      rw [fits_nil_iff h1]
      refine ⟨.str {} u (some w) v, ds', rfl, (alike_cons (alike_cons (alike_one v l))).imp fun hu => ?_, h2⟩
      simp only [Expr.bare, hu, Option.map_some]
  | .paren a l e s, n, r, ds, hw, h => by
    simp only [Written] at hw
    obtain ⟨hk, l', e', r', hc, hl, he, hr⟩ := hw
    rw [conv_node (by rw [hk]; rfl), hc, all_cons_node, all_cons_node, all_cons_node, all_nil_node, hk] at h
    obtain ⟨cs, ds', rfl, h1, h2⟩ := fits_node h
    obtain ⟨u, _, rfl, -, h1⟩ := fits_leaf hl h1
    obtain ⟨y, _, rfl, hy, h1⟩ := fit_expr e he h1
    obtain ⟨v, _, rfl, -, h1⟩ := fits_leaf hr h1
    rw [fits_nil_iff h1]
    refine ⟨.paren {} u y v, ds', rfl, (alike_cons (alike_append hy (alike_one v s))).imp fun hu => ?_, h2⟩
    simp only [Expr.bare, hu]
  | .braced a l es s, n, r, ds, hw, h => by
    simp only [Written] at hw
    obtain ⟨hk, l', mid, r', hc, hl, he, hr⟩ := hw
    rw [conv_braced hk hc] at h
    obtain ⟨cs, ds', rfl, h1, h2⟩ := fits_node h
    obtain ⟨u, _, rfl, -, h1⟩ := fits_leaf hl h1
    obtain ⟨ms, _, rfl, h3, h4⟩ := fits_node h1
    obtain ⟨y, rfl, hy⟩ := fit_exprs es he h3
    rw [← List.append_nil (conv r')] at h4
    obtain ⟨v, _, rfl, -, h4⟩ := fits_leaf hr h4
    rw [fits_nil_iff h4]
    refine ⟨.braced {} u y v, ds', rfl, (alike_cons (alike_append hy (alike_one v s))).imp fun hu => ?_, h2⟩
    simp only [Expr.bare, hu]
  | .unary a o e, n, r, ds, hw, h => by
    simp only [Written] at hw
    obtain ⟨hk, o', e', hc, ho, he⟩ := hw
    rw [conv_node (by rw [hk]; rfl), hc, all_cons_node, all_cons_node, all_nil_node, hk] at h
    obtain ⟨cs, ds', rfl, h1, h2⟩ := fits_node h
    obtain ⟨u, _, rfl, -, h1⟩ := fits_leaf ho h1
    obtain ⟨y, _, rfl, hy, h1⟩ := fit_expr e he h1
    rw [fits_nil_iff h1]
    refine ⟨.unary {} u y, ds', rfl, (alike_cons hy).imp fun hu => ?_, h2⟩
    simp only [Expr.bare, hu]
  | .binary a x o y, n, r, ds, hw, h => by
    simp only [Written] at hw
    obtain ⟨hk, x', o', y', hc, hx, ho, hy⟩ := hw
    rw [conv_node (by rw [hk]; rfl), hc, all_cons_node, all_cons_node, all_cons_node, all_nil_node, hk] at h
    obtain ⟨cs, ds', rfl, h1, h2⟩ := fits_node h
    obtain ⟨v, _, rfl, hv, h1⟩ := fit_expr x hx h1
    obtain ⟨u, _, rfl, -, h1⟩ := fits_leaf ho h1
    obtain ⟨w, _, rfl, hw, h1⟩ := fit_expr y hy h1
    rw [fits_nil_iff h1]
    refine ⟨.binary {} v u w, ds', rfl, (alike_append hv (alike_cons hw)).imp fun hu => ?_, h2⟩
    simp only [Expr.bare, hu]
  | .sel a k x o y, n, r, ds, hw, h => by
    simp only [Written] at hw
    obtain ⟨hk, x', o', y', hc, hx, ho, hy⟩ := hw
    rw [conv_node (by rw [hk]; cases k <;> rfl), hc, all_cons_node, all_cons_node, all_cons_node,
      all_nil_node, hk] at h
    obtain ⟨cs, ds', rfl, h1, h2⟩ := fits_node h
    obtain ⟨v, _, rfl, hv, h1⟩ := fit_expr x hx h1
    obtain ⟨u, _, rfl, -, h1⟩ := fits_leaf ho h1
    obtain ⟨w, _, rfl, hw, h1⟩ := fit_expr y hy h1
    rw [fits_nil_iff h1]
    refine ⟨.sel {} k v u w, ds', rfl, (alike_append hv (alike_cons hw)).imp fun hu => ?_, h2⟩
    simp only [Expr.bare, hu]
  | .call a k f aa l items s, n, r, ds, hw, h => by
    simp only [Written] at hw
    obtain ⟨hk, f', a', l', mid, r', hc, hn, hf', ha', -, hf, hm, hl, hi, hr⟩ := hw
    rw [conv_call_kids k hk hc hn hf' ha' hm] at h
    obtain ⟨cs, ds', rfl, h1, h2⟩ := fits_node h
    obtain ⟨g, _, rfl, hg, h1⟩ := fit_expr f hf h1
    obtain ⟨as, _, rfl, h3, h1⟩ := fits_node h1
    rw [fits_nil_iff h1]
    obtain ⟨u, _, rfl, -, h3⟩ := fits_leaf hl h3
    obtain ⟨ms, _, rfl, h4, h3⟩ := fits_node h3
    rw [← List.append_nil (conv r')] at h3
    obtain ⟨v, _, rfl, -, h3⟩ := fits_leaf hr h3
    rw [fits_nil_iff h3]
    obtain ⟨y, rfl, hy⟩ := fit_argList items hi h4
    refine ⟨.call {} k g {} u y v, ds', rfl,
      (alike_append hg (alike_cons (alike_append hy (alike_one v s)))).imp fun hu => ?_, h2⟩
    simp only [Expr.bare, hu]
  | .func a kw pa l items s b, n, r, ds, hw, h => by
    simp only [Written] at hw
    obtain ⟨hk, kw', p', b', l', mid, r', hc, hkw, hb, hp, hm, hl, hi, hr⟩ := hw
    rw [conv_node (by rw [hk]; rfl), hc, all_cons_node, all_cons_node, all_cons_node, all_nil_node, hk,
      conv_parameters hp hm] at h
    obtain ⟨cs, ds', rfl, h1, h2⟩ := fits_node h
    obtain ⟨w, _, rfl, -, h1⟩ := fits_leaf hkw h1
    obtain ⟨as, _, rfl, h3, h1⟩ := fits_node h1
    obtain ⟨c, _, rfl, hg, h1⟩ := fit_expr b hb h1
    rw [fits_nil_iff h1]
    obtain ⟨u, _, rfl, -, h3⟩ := fits_leaf hl h3
    obtain ⟨ms, _, rfl, h4, h3⟩ := fits_node h3
    rw [← List.append_nil (conv r')] at h3
    obtain ⟨v, _, rfl, -, h3⟩ := fits_leaf hr h3
    rw [fits_nil_iff h3]
    obtain ⟨y, rfl, hy⟩ := fit_pars items hi h4
    refine ⟨.func {} w {} u y v c, ds', rfl,
      (alike_cons (alike_cons (alike_append hy (alike_cons hg)))).imp fun hu => ?_, h2⟩
    simp only [Expr.bare, hu]
  | .ite a kw l c s t, n, r, ds, hw, h => by
    simp only [Written] at hw
    obtain ⟨hk, kw', l', c', r', t', hc, hkk, hkw, hlk, hl, hcc, hrk, hr, ht⟩ := hw
    rw [conv_if hk, hc] at h
    rw [clauseFrom_none] at h
    · rw [all_cons_node, all_cons_node, all_cons_node, all_cons_node, all_cons_node, all_nil_node] at h
      obtain ⟨cs, ds', rfl, h1, h2⟩ := fits_node h
      obtain ⟨u1, _, rfl, hu1, h1⟩ := fits_leaf hkw h1
      obtain ⟨u2, _, rfl, -, h1⟩ := fits_leaf hl h1
      obtain ⟨y1, _, rfl, hy1, h1⟩ := fit_expr c hcc h1
      obtain ⟨u4, _, rfl, -, h1⟩ := fits_leaf hr h1
      obtain ⟨y3, _, rfl, hy3, h1⟩ := fit_expr t ht h1
      rw [fits_nil_iff h1]
      refine ⟨.ite {} u1 u2 y1 u4 y3, ds', rfl, (alike_cons (alike_cons (alike_append hy1 (alike_cons
        hy3)))).imp fun hu => ?_, h2⟩
      simp only [Expr.bare, hu]
    · intro x hx
      simp only [items_none_cons, List.mem_cons, items, List.not_mem_nil, or_false] at hx
      rcases hx with rfl | rfl | rfl | rfl | rfl
      · simp only [hkw.1, hkk]; decide
      · simp only [hl.1, hlk]; decide
      · exact (written_kind hcc).1
      · simp only [hr.1, hrk]; decide
      · exact (written_kind ht).1
  | .itee a kw l c s t ea el e, n, r, ds, hw, h => by
    simp only [Written] at hw
    obtain ⟨hk, kw', l', c', r', t', el', e', hc, hkk, hkw, hlk, hl, hcc, hrk, hr, ht, hek, hel, he⟩ := hw
    rw [conv_if hk, hc] at h
    have hs : items none [kw', l', c', r', t', el', e'] =
        items none [kw', l', c', r', t'] ++ ⟨el'.kind, conv el'⟩ :: items none [e'] := by
      simp only [items_none_cons, List.cons_append, items, List.nil_append]
    rw [hs, clauseFrom_some _ (hel.1.trans hek)] at h
    · rw [all_cons_node, all_cons_node, all_cons_node, all_cons_node, all_cons_node, all_nil_node,
        Item.all_cons, all_cons_node, all_nil_node] at h
      simp only [List.append_assoc, List.nil_append] at h
      obtain ⟨cs, ds', rfl, h1, h2⟩ := fits_node h
      obtain ⟨u1, _, rfl, hu1, h1⟩ := fits_leaf hkw h1
      obtain ⟨u2, _, rfl, -, h1⟩ := fits_leaf hl h1
      obtain ⟨y1, _, rfl, hy1, h1⟩ := fit_expr c hcc h1
      obtain ⟨u4, _, rfl, -, h1⟩ := fits_leaf hr h1
      obtain ⟨y3, _, rfl, hy3, h1⟩ := fit_expr t ht h1
      obtain ⟨ms, _, rfl, h3, h1⟩ := fits_node h1
      rw [fits_nil_iff h1]
      obtain ⟨u5, _, rfl, -, h3⟩ := fits_leaf hel h3
      obtain ⟨y4, _, rfl, hy4, h3⟩ := fit_expr e he h3
      rw [fits_nil_iff h3]
      refine ⟨.itee {} u1 u2 y1 u4 y3 {} u5 y4, ds', rfl, (alike_cons (alike_cons (alike_append hy1 (alike_cons
        (alike_append hy3 (alike_cons hy4)))))).imp fun hu => ?_, h2⟩
      simp only [Expr.bare, hu]
    · intro x hx
      simp only [items_none_cons, List.mem_cons, items, List.not_mem_nil, or_false] at hx
      rcases hx with rfl | rfl | rfl | rfl | rfl
      · simp only [hkw.1, hkk]; decide
      · simp only [hl.1, hlk]; decide
      · exact (written_kind hcc).1
      · simp only [hr.1, hrk]; decide
      · exact (written_kind ht).1
  | .for_ a kw l v i q s b, n, r, ds, hw, h => by
    simp only [Written] at hw
    obtain ⟨hk, kw', l', v', i', s', r', b', hc, hkw, hl, -, hv, hi, hs, hr, hb⟩ := hw
    rw [conv_node (by rw [hk]; rfl), hc, all_cons_node, all_cons_node, all_cons_node, all_cons_node,
      all_cons_node, all_cons_node, all_cons_node, all_nil_node, hk] at h
    obtain ⟨cs, ds', rfl, h1, h2⟩ := fits_node h
    obtain ⟨u1, _, rfl, -, h1⟩ := fits_leaf hkw h1
    obtain ⟨u2, _, rfl, -, h1⟩ := fits_leaf hl h1
    obtain ⟨y1, _, rfl, hy1, h1⟩ := fit_expr v hv h1
    obtain ⟨u3, _, rfl, -, h1⟩ := fits_leaf hi h1
    obtain ⟨y2, _, rfl, hy2, h1⟩ := fit_expr q hs h1
    obtain ⟨u4, _, rfl, -, h1⟩ := fits_leaf hr h1
    obtain ⟨y3, _, rfl, hy3, h1⟩ := fit_expr b hb h1
    rw [fits_nil_iff h1]
    refine ⟨.for_ {} u1 u2 y1 u3 y2 u4 y3, ds', rfl, (alike_cons (alike_cons (alike_append hy1 (alike_cons
      (alike_append hy2 (alike_cons hy3)))))).imp fun hu => ?_, h2⟩
    simp only [Expr.bare, hu]
  | .while_ a kw l c s b, n, r, ds, hw, h => by
    simp only [Written] at hw
    obtain ⟨hk, kw', l', c', r', b', hc, hkw, hl, hcc, hr, hb⟩ := hw
    rw [conv_node (by rw [hk]; rfl), hc, all_cons_node, all_cons_node, all_cons_node, all_cons_node,
      all_cons_node, all_nil_node, hk] at h
    obtain ⟨cs, ds', rfl, h1, h2⟩ := fits_node h
    obtain ⟨u1, _, rfl, -, h1⟩ := fits_leaf hkw h1
    obtain ⟨u2, _, rfl, -, h1⟩ := fits_leaf hl h1
    obtain ⟨y1, _, rfl, hy1, h1⟩ := fit_expr c hcc h1
    obtain ⟨u4, _, rfl, -, h1⟩ := fits_leaf hr h1
    obtain ⟨y3, _, rfl, hy3, h1⟩ := fit_expr b hb h1
    rw [fits_nil_iff h1]
    refine ⟨.while_ {} u1 u2 y1 u4 y3, ds', rfl, (alike_cons (alike_cons (alike_append hy1 (alike_cons
      hy3)))).imp fun hu => ?_, h2⟩
    simp only [Expr.bare, hu]
  | .repeat_ a kw b, n, r, ds, hw, h => by
    simp only [Written] at hw
    obtain ⟨hk, kw', b', hc, hkw, hb⟩ := hw
    rw [conv_node (by rw [hk]; rfl), hc, all_cons_node, all_cons_node, all_nil_node, hk] at h
    obtain ⟨cs, ds', rfl, h1, h2⟩ := fits_node h
    obtain ⟨u, _, rfl, -, h1⟩ := fits_leaf hkw h1
    obtain ⟨y, _, rfl, hy, h1⟩ := fit_expr b hb h1
    rw [fits_nil_iff h1]
    refine ⟨.repeat_ {} u y, ds', rfl, (alike_cons hy).imp fun hu => ?_, h2⟩
    simp only [Expr.bare, hu]
theorem fit_exprs {text : List Byte} : ∀ (x : Exprs) {ns : List TsNode} {ds : List Tree},
    WrittenList text x ns → FitsList (Item.all (items none ns)) ds →
    ∃ y, ds = exprTrees y ∧ LikeExprs x y
  | .nil, ns, ds, hw, h => by
    simp only [WrittenList] at hw
    subst hw
    rw [fits_nil_iff h]
    exact ⟨.nil, rfl, alike_nil.imp fun _ => rfl⟩
  | .cons e es, ns, ds, hw, h => by
    simp only [WrittenList] at hw
    obtain ⟨n, r, rfl, he, hes⟩ := hw
    rw [all_cons_node] at h
    obtain ⟨y, _, rfl, hy, h⟩ := fit_expr e he h
    obtain ⟨ys, rfl, hys⟩ := fit_exprs es hes h
    refine ⟨.cons y ys, rfl, (alike_append hy hys).imp fun hu => ?_⟩
    simp only [Exprs.bare, hu]
theorem fit_argList {text : List Byte} : ∀ (x : Items) {ns : List TsNode} {ds : List Tree},
    WrittenArgs text true x ns → FitsList (argList (items none ns)) ds →
    ∃ y, ds = itemTrees false y ∧ LikeItems x y
  | .nil, ns, ds, hw, h => by
    simp only [WrittenArgs] at hw
    obtain ⟨-, rfl⟩ := hw
    rw [fits_nil_iff h]
    exact ⟨.nil, rfl, alike_nil.imp fun _ => rfl⟩
  | .last x, ns, ds, hw, h => by
    simp only [WrittenArgs, Bool.true_and] at hw
    obtain ⟨hh, hw⟩ := hw
    rw [argList_groups] at h
    · rw [argGroups_none fun y hy => (groups_arg hw y hy).1, ← List.append_nil (argOf _)] at h
      obtain ⟨y, _, rfl, hy, h⟩ := fit_arg x hw h
      rw [fits_nil_iff h]
      refine ⟨.last y, rfl, hy.imp fun hu => ?_⟩
      simp only [Items.bare, hu]
    · obtain ⟨a, rfl, hk⟩ := writtenArg_node hh hw
      exact ⟨⟨a.kind, conv a⟩, by rw [items_none_cons]; simp, by simp [hk]⟩
  | .cons x s xs, ns, ds, hw, h => by
    simp only [WrittenArgs] at hw
    obtain ⟨a, c, r, rfl, hx, hs, hc, hr⟩ := hw
    rw [items_append, items_none_cons, argList_groups ⟨⟨c.kind, conv c⟩, by simp, by simp [hc.1, hs]⟩,
      argGroups_split (fun y hy => (groups_arg hx y hy).1) (hc.1.trans hs)] at h
    obtain ⟨y, _, rfl, hy, h⟩ := fit_arg x hx h
    obtain ⟨u, _, rfl, -, h⟩ := fits_leaf hc h
    obtain ⟨ys, rfl, hys⟩ := fit_args xs hr h
    refine ⟨.cons y u ys, rfl, (alike_append hy (alike_cons hys)).imp fun hu => ?_⟩
    simp only [Items.bare, hu]
theorem fit_args {text : List Byte} : ∀ (x : Items) {ns : List TsNode} {ds : List Tree},
    WrittenArgs text false x ns → FitsList (argGroups (items none ns)) ds →
    ∃ y, ds = itemTrees false y ∧ LikeItems x y
  | .nil, ns, ds, hw, h => by
    simp only [WrittenArgs] at hw
    exact absurd hw.1 (by decide)
  | .last x, ns, ds, hw, h => by
    simp only [WrittenArgs] at hw
    obtain ⟨hh, hw⟩ := hw
    rw [argGroups_none fun y hy => (groups_arg hw y hy).1, ← List.append_nil (argOf _)] at h
    obtain ⟨y, _, rfl, hy, h⟩ := fit_arg x hw h
    rw [fits_nil_iff h]
    refine ⟨.last y, rfl, hy.imp fun hu => ?_⟩
    simp only [Items.bare, hu]
  | .cons x s xs, ns, ds, hw, h => by
    simp only [WrittenArgs] at hw
    obtain ⟨a, c, r, rfl, hx, hs, hc, hr⟩ := hw
    rw [items_append, items_none_cons,
      argGroups_split (fun y hy => (groups_arg hx y hy).1) (hc.1.trans hs)] at h
    obtain ⟨y, _, rfl, hy, h⟩ := fit_arg x hx h
    obtain ⟨u, _, rfl, -, h⟩ := fits_leaf hc h
    obtain ⟨ys, rfl, hys⟩ := fit_args xs hr h
    refine ⟨.cons y u ys, rfl, (alike_append hy (alike_cons hys)).imp fun hu => ?_⟩
    simp only [Items.bare, hu]
theorem fit_arg {text : List Byte} : ∀ (x : Arg) {ns : List TsNode} {r : List PTree} {ds : List Tree},
    WrittenArg text x ns → FitsList (argOf (items none ns) ++ r) ds →
    ∃ y ds', ds = argTree false y :: ds' ∧ LikeArg x y ∧ FitsList r ds'
  | .hole a, ns, r, ds, hw, h => by
    simp only [WrittenArg] at hw
    subst hw
    obtain ⟨cs, ds', rfl, h1, h2⟩ := fits_node (k := .rArgument) (ps := []) h
    rw [fits_nil_iff h1]
    exact ⟨.hole {}, ds', rfl, alike_nil.imp fun _ => rfl, h2⟩
  | .val a e, ns, r, ds, hw, h => by
    simp only [WrittenArg] at hw
    obtain ⟨n, e', rfl, hk, hc, he⟩ := hw
    rw [argOf_node hk, conv_arg_kids hk, hc, clauseUpTo_none, all_cons_node, all_nil_node] at h
    · obtain ⟨cs, ds', rfl, h1, h2⟩ := fits_node h
      obtain ⟨y, _, rfl, hy, h1⟩ := fit_expr e he h1
      rw [fits_nil_iff h1]
      refine ⟨.val {} y, ds', rfl, hy.imp fun hu => ?_, h2⟩
      simp only [Arg.bare, hu]
    · intro x hx
      simp only [items_none_cons, List.mem_cons, items, List.not_mem_nil, or_false] at hx
      subst hx
      exact (written_kind he).2.1
  | .name a na m q, ns, r, ds, hw, h => by
    simp only [WrittenArg] at hw
    obtain ⟨n, m', q', rfl, hk, hc, hm, hqk, hq⟩ := hw
    have hs : items none [m', q'] = items none [m'] ++ ⟨q'.kind, conv q'⟩ :: [] := by
      simp only [items_none_cons, List.cons_append, items, List.nil_append]
    rw [argOf_node hk, conv_arg_kids hk, hc, hs, clauseUpTo_some _ (hq.1.trans hqk), all_cons_node,
      all_nil_node] at h
    · obtain ⟨cs, ds', rfl, h1, h2⟩ := fits_node h
      obtain ⟨ms, _, rfl, h3, h1⟩ := fits_node h1
      rw [fits_nil_iff h1]
      rw [List.append_nil] at h3
      obtain ⟨y, _, rfl, hy, h3⟩ := fit_expr m hm h3
      rw [← List.append_nil (Item.trees _)] at h3
      obtain ⟨u, _, rfl, -, h3⟩ := fits_leaf hq h3
      rw [fits_nil_iff h3]
      refine ⟨.name {} {} y u, ds', rfl, (alike_append hy (alike_one u q)).imp fun hu => ?_, h2⟩
      simp only [Arg.bare, hu]
    · intro x hx
      simp only [items_none_cons, List.mem_cons, items, List.not_mem_nil, or_false] at hx
      subst hx
      exact (written_kind hm).2.1
  | .named a na m q e, ns, r, ds, hw, h => by
    simp only [WrittenArg] at hw
    obtain ⟨n, m', q', e', rfl, hk, hc, hm, hqk, hq, he⟩ := hw
    have hs : items none [m', q', e'] = items none [m'] ++ ⟨q'.kind, conv q'⟩ :: items none [e'] := by
      simp only [items_none_cons, List.cons_append, items, List.nil_append]
    rw [argOf_node hk, conv_arg_kids hk, hc, hs, clauseUpTo_some _ (hq.1.trans hqk), all_cons_node,
      all_nil_node, all_cons_node, all_nil_node] at h
    · obtain ⟨cs, ds', rfl, h1, h2⟩ := fits_node h
      obtain ⟨ms, _, rfl, h3, h4⟩ := fits_node h1
      rw [List.append_nil] at h3
      obtain ⟨y, _, rfl, hy, h3⟩ := fit_expr m hm h3
      rw [← List.append_nil (Item.trees _)] at h3
      obtain ⟨u, _, rfl, -, h3⟩ := fits_leaf hq h3
      rw [fits_nil_iff h3]
      obtain ⟨z, _, rfl, hz, h4⟩ := fit_expr e he h4
      rw [fits_nil_iff h4]
      refine ⟨.named {} {} y u z, ds', rfl, (alike_append hy (alike_cons hz)).imp fun hu => ?_, h2⟩
      simp only [Arg.bare, hu]
    · intro x hx
      simp only [items_none_cons, List.mem_cons, items, List.not_mem_nil, or_false] at hx
      subst hx
      exact (written_kind hm).2.1
  | .pdef .., ns, r, ds, hw, h => by
    simp only [WrittenArg] at hw
theorem fit_pars {text : List Byte} : ∀ (x : Items) {ns : List TsNode} {ds : List Tree},
    WrittenPars text x ns → FitsList (Item.all (items none ns)) ds →
    ∃ y, ds = itemTrees true y ∧ LikeItems x y
  | .nil, ns, ds, hw, h => by
    simp only [WrittenPars] at hw
    subst hw
    rw [fits_nil_iff h]
    exact ⟨.nil, rfl, alike_nil.imp fun _ => rfl⟩
  | .last x, ns, ds, hw, h => by
    simp only [WrittenPars] at hw
    obtain ⟨p, rfl, hp⟩ := hw
    rw [all_cons_node, all_nil_node] at h
    obtain ⟨y, _, rfl, hy, h⟩ := fit_par x hp h
    rw [fits_nil_iff h]
    refine ⟨.last y, rfl, hy.imp fun hu => ?_⟩
    simp only [Items.bare, hu]
  | .cons x s xs, ns, ds, hw, h => by
    simp only [WrittenPars] at hw
    obtain ⟨p, c, r, rfl, hp, hc, hr⟩ := hw
    rw [all_cons_node, all_cons_node] at h
    obtain ⟨y, _, rfl, hy, h⟩ := fit_par x hp h
    obtain ⟨u, _, rfl, -, h⟩ := fits_leaf hc h
    obtain ⟨ys, rfl, hys⟩ := fit_pars xs hr h
    refine ⟨.cons y u ys, rfl, (alike_append hy (alike_cons hys)).imp fun hu => ?_⟩
    simp only [Items.bare, hu]
theorem fit_par {text : List Byte} : ∀ (x : Arg) {n : TsNode} {r : List PTree} {ds : List Tree},
    WrittenPar text x n → FitsList (conv n ++ r) ds →
    ∃ y ds', ds = argTree true y :: ds' ∧ LikeArg x y ∧ FitsList r ds'
  | .val a e, n, r, ds, hw, h => by
    simp only [WrittenPar] at hw
    obtain ⟨hk, e', hc, he⟩ := hw
    rw [conv_parameter hk, hc, clauseFrom_none, all_cons_node, all_nil_node] at h
    · obtain ⟨cs, ds', rfl, h1, h2⟩ := fits_node h
      obtain ⟨y, _, rfl, hy, h1⟩ := fit_expr e he h1
      rw [fits_nil_iff h1]
      refine ⟨.val {} y, ds', rfl, hy.imp fun hu => ?_, h2⟩
      simp only [Arg.bare, hu]
    · intro x hx
      simp only [items_none_cons, List.mem_cons, items, List.not_mem_nil, or_false] at hx
      subst hx
      exact (written_kind he).2.1
  | .pdef a m da q e, n, r, ds, hw, h => by
    simp only [WrittenPar] at hw
    obtain ⟨hk, m', q', e', hc, hm, hqk, hq, he⟩ := hw
    have hs : items none [m', q', e'] = items none [m'] ++ ⟨q'.kind, conv q'⟩ :: items none [e'] := by
      simp only [items_none_cons, List.cons_append, items, List.nil_append]
    rw [conv_parameter hk, hc, hs, clauseFrom_some _ (hq.1.trans hqk), all_cons_node, all_nil_node,
      Item.all_cons, all_cons_node, all_nil_node] at h
    · rw [List.append_nil] at h
      obtain ⟨cs, ds', rfl, h1, h2⟩ := fits_node h
      obtain ⟨y, _, rfl, hy, h1⟩ := fit_expr m hm h1
      obtain ⟨ms, _, rfl, h3, h4⟩ := fits_node h1
      rw [fits_nil_iff h4]
      obtain ⟨u, _, rfl, -, h3⟩ := fits_leaf hq h3
      obtain ⟨z, _, rfl, hz, h3⟩ := fit_expr e he h3
      rw [fits_nil_iff h3]
      refine ⟨.pdef {} y {} u z, ds', rfl, (alike_append hy (alike_cons hz)).imp fun hu => ?_, h2⟩
      simp only [Arg.bare, hu]
    · intro x hx
      simp only [items_none_cons, List.mem_cons, items, List.not_mem_nil, or_false] at hx
      subst hx
      exact (written_kind hm).2.1
  | .hole .., n, r, ds, hw, h => by simp only [WrittenPar] at hw
  | .name .., n, r, ds, hw, h => by simp only [WrittenPar] at hw
  | .named .., n, r, ds, hw, h => by simp only [WrittenPar] at hw
end

/-! ## Tokens -/

mutual
theorem exprTree_tokens : ∀ x : Expr, (exprTree x).tokens = x.tokens
  | .atom _ k t => by simp [exprTree, Tree.tokens, Tree.tokensList, Expr.tokens]
  | .str _ o c l => by cases c <;> simp [exprTree, Tree.tokens, Tree.tokensList, Expr.tokens]
  | .paren _ l e r => by simp [exprTree, Tree.tokens, Tree.tokensList, Expr.tokens, exprTree_tokens e]
  | .braced _ l es r => by
    simp [exprTree, Tree.tokens, Tree.tokensList, Expr.tokens, exprTrees_tokens es]
  | .unary _ o e => by simp [exprTree, Tree.tokens, Tree.tokensList, Expr.tokens, exprTree_tokens e]
  | .binary _ x o y => by
    simp [exprTree, Tree.tokens, Tree.tokensList, Expr.tokens, exprTree_tokens x, exprTree_tokens y]
  | .sel _ k x o y => by
    simp [exprTree, Tree.tokens, Tree.tokensList, Expr.tokens, exprTree_tokens x, exprTree_tokens y]
  | .call _ k f _ l items r => by
    simp [exprTree, Tree.tokens, Tree.tokensList, Expr.tokens, exprTree_tokens f, itemTrees_tokens false items]
  | .func _ kw _ l items r b => by
    simp [exprTree, Tree.tokens, Tree.tokensList, Expr.tokens, exprTree_tokens b, itemTrees_tokens true items]
  | .ite _ kw l c r t => by
    simp [exprTree, Tree.tokens, Tree.tokensList, Expr.tokens, exprTree_tokens c, exprTree_tokens t]
  | .itee _ kw l c r t _ el e => by
    simp [exprTree, Tree.tokens, Tree.tokensList, Expr.tokens, exprTree_tokens c, exprTree_tokens t,
      exprTree_tokens e]
  | .for_ _ kw l v i s r b => by
    simp [exprTree, Tree.tokens, Tree.tokensList, Expr.tokens, exprTree_tokens v, exprTree_tokens s,
      exprTree_tokens b]
  | .while_ _ kw l c r b => by
    simp [exprTree, Tree.tokens, Tree.tokensList, Expr.tokens, exprTree_tokens c, exprTree_tokens b]
  | .repeat_ _ kw b => by simp [exprTree, Tree.tokens, Tree.tokensList, Expr.tokens, exprTree_tokens b]
theorem exprTrees_tokens : ∀ x : Exprs, Tree.tokensList (exprTrees x) = x.tokens
  | .nil => rfl
  | .cons e es => by simp [exprTrees, Tree.tokensList, Exprs.tokens, exprTree_tokens e, exprTrees_tokens es]
theorem itemTrees_tokens (par : Bool) : ∀ x : Items, Tree.tokensList (itemTrees par x) = x.tokens
  | .nil => rfl
  | .last x => by simp [itemTrees, Tree.tokensList, Items.tokens, argTree_tokens par x]
  | .cons x s xs => by
    simp [itemTrees, Tree.tokensList, Tree.tokens, Items.tokens, argTree_tokens par x, itemTrees_tokens par xs]
theorem argTree_tokens (par : Bool) : ∀ x : Arg, (argTree par x).tokens = x.tokens
  | .hole _ => by simp [argTree, Tree.tokens, Tree.tokensList, Arg.tokens]
  | .val _ e => by simp [argTree, Tree.tokens, Tree.tokensList, Arg.tokens, exprTree_tokens e]
  | .name _ _ n q => by simp [argTree, Tree.tokens, Tree.tokensList, Arg.tokens, exprTree_tokens n]
  | .named _ _ n q e => by
    simp [argTree, Tree.tokens, Tree.tokensList, Arg.tokens, exprTree_tokens n, exprTree_tokens e]
  | .pdef _ n _ q e => by
    simp [argTree, Tree.tokens, Tree.tokensList, Arg.tokens, exprTree_tokens n, exprTree_tokens e]
end

/-- The tokens of nodes. -/
def toks (text : List Byte) (ns : List TsNode) : List (Kind × List Byte) := leafTexts text (leavesList ns)

theorem leafTexts_append (text : List Byte) (a b : List Leaf) :
    leafTexts text (a ++ b) = leafTexts text a ++ leafTexts text b := by
  simp [leafTexts]

theorem toks_cons (text : List Byte) (n : TsNode) (ns : List TsNode) :
    toks text (n :: ns) = toks text [n] ++ toks text ns := by
  simp only [toks, leavesList, List.append_nil, leafTexts_append]

theorem toks_nil (text : List Byte) : toks text [] = [] := rfl

theorem toks_append (text : List Byte) (a b : List TsNode) :
    toks text (a ++ b) = toks text a ++ toks text b := by
  induction a with
  | nil => rfl
  | cons n a ih => rw [List.cons_append, toks_cons, ih, toks_cons text n a, List.append_assoc]

theorem toks_kids (text : List Byte) (ns : List TsNode) : toks text (kids ns) = toks text ns := by
  induction ns with
  | nil => rfl
  | cons n ns ih =>
    unfold kids at ih ⊢
    rw [List.filter_cons]
    by_cases h : n.kind = .comment
    · rw [if_neg (by simp [h]), ih, toks_cons text n ns]
      obtain ⟨k, f, s, e, cs⟩ := n
      obtain rfl : k = .comment := h
      simp [toks, leavesList, leaves, classify, leafTexts]
    · rw [if_pos (by simpa using h), toks_cons, ih, toks_cons text n ns]

theorem toks_leaf {text : List Byte} {n : TsNode} {t : Token} (h : IsTok text n t) : toks text [n] = [kt t] := by
  obtain ⟨k, f, s, e, cs⟩ := n
  obtain ⟨h1, h2, h3⟩ := h
  simp only [TsNode.kind, TsNode.start, TsNode.stop] at h1 h2 h3
  subst h1
  rcases h2 with h2 | h2 <;> simp [toks, leavesList, leaves, h2, leafTexts, kt, h3]

theorem toks_inner {text : List Byte} {n : TsNode} (h : match classify n.kind with
      | .value _ | .atom _ | .content | .token | .comment => False | _ => True) :
    toks text [n] = toks text (kids n.children) := by
  obtain ⟨k, f, s, e, cs⟩ := n
  simp only [TsNode.kind] at h
  rw [toks_kids]
  simp only [toks, leavesList, List.append_nil, leaves]
  cases hc : classify k <;> simp only [hc] at h ⊢ <;> first | exact h.elim | rfl

mutual
theorem toks_expr {text : List Byte} : ∀ (x : Expr) {n : TsNode}, Written text x n →
    toks text [n] = x.tokens.map kt
  | .atom _ k t, n, h => by
    simp only [Written] at h
    obtain ⟨rfl, ⟨h, ht⟩ | ⟨hk, c, hc, ht⟩⟩ := h
    · obtain ⟨k, f, s, e, cs⟩ := n
      simp only [TsNode.kind, TsNode.start, TsNode.stop] at h ht
      rcases h with h | h <;> simp [toks, leavesList, leaves, h, leafTexts, kt, ht, Expr.tokens]
    · rw [toks_inner (by rw [hk]; trivial), hc, toks_leaf ht]; rfl
  | .str _ o c l, n, h => by
    simp only [Written] at h
    obtain ⟨hk, o', c', l', hc, ho, hl, hm⟩ := h
    rw [toks_inner (by rw [hk]; trivial), hc, toks_cons, toks_append, toks_leaf ho, toks_leaf hl]
    cases c with
    | none => obtain rfl : c' = [] := hm; rfl
    | some t => obtain ⟨m, rfl, hm⟩ := hm; rw [toks_leaf hm]; rfl
  | .paren _ l e r, n, h => by
    simp only [Written] at h
    obtain ⟨hk, l', e', r', hc, hl, he, hr⟩ := h
    rw [toks_inner (by rw [hk]; trivial), hc, toks_cons, toks_cons text e', toks_leaf hl, toks_leaf hr,
      toks_expr e he]
    simp [Expr.tokens]
  | .braced _ l es r, n, h => by
    simp only [Written] at h
    obtain ⟨hk, l', mid, r', hc, hl, he, hr⟩ := h
    rw [toks_inner (by rw [hk]; trivial), toks_kids, hc, toks_cons, toks_append, toks_leaf hl, toks_leaf hr,
      ← toks_kids text mid, toks_exprs es he]
    simp [Expr.tokens]
  | .unary _ o e, n, h => by
    simp only [Written] at h
    obtain ⟨hk, o', e', hc, ho, he⟩ := h
    rw [toks_inner (by rw [hk]; trivial), hc, toks_cons, toks_leaf ho, toks_expr e he]
    simp [Expr.tokens]
  | .binary _ x o y, n, h => by
    simp only [Written] at h
    obtain ⟨hk, x', o', y', hc, hx, ho, hy⟩ := h
    rw [toks_inner (by rw [hk]; trivial), hc, toks_cons, toks_cons text o', toks_leaf ho, toks_expr x hx,
      toks_expr y hy]
    simp [Expr.tokens]
  | .sel _ k x o y, n, h => by
    simp only [Written] at h
    obtain ⟨hk, x', o', y', hc, hx, ho, hy⟩ := h
    rw [toks_inner (by rw [hk]; cases k <;> trivial), hc, toks_cons, toks_cons text o', toks_leaf ho,
      toks_expr x hx, toks_expr y hy]
    simp [Expr.tokens]
  | .call _ k f _ l items r, n, h => by
    simp only [Written] at h
    obtain ⟨hk, f', a', l', mid, r', hc, -, -, -, ha, hf, hm, hl, hi, hr⟩ := h
    rw [toks_inner (by rw [hk]; cases k <;> trivial), hc, toks_cons, toks_expr f hf,
      toks_inner (n := a') (by rw [ha]; trivial), toks_kids, hm, toks_cons, toks_append, toks_leaf hl,
      toks_leaf hr, ← toks_kids text mid, toks_args true items hi]
    simp [Expr.tokens]
  | .func _ kw _ l items r b, n, h => by
    simp only [Written] at h
    obtain ⟨hk, kw', p', b', l', mid, r', hc, hkw, hb, hp, hm, hl, hi, hr⟩ := h
    rw [toks_inner (by rw [hk]; trivial), hc, toks_cons, toks_leaf hkw, toks_cons, toks_expr b hb,
      toks_inner (n := p') (by rw [hp]; trivial), toks_kids, hm, toks_cons, toks_append, toks_leaf hl,
      toks_leaf hr, ← toks_kids text mid, toks_pars items hi]
    simp [Expr.tokens]
  | .ite _ kw l c r t, n, h => by
    simp only [Written] at h
    obtain ⟨hk, kw', l', c', r', t', hc, hkk, hkw, hlk, hl, hcc, hrk, hr, ht⟩ := h
    rw [toks_inner (by rw [hk]; trivial), hc, toks_cons, toks_leaf hkw, toks_cons, toks_leaf hl, toks_cons,
      toks_expr c hcc, toks_cons, toks_leaf hr, toks_expr t ht]
    simp [Expr.tokens]
  | .itee _ kw l c r t _ el e, n, h => by
    simp only [Written] at h
    obtain ⟨hk, kw', l', c', r', t', el', e', hc, hkk, hkw, hlk, hl, hcc, hrk, hr, ht, hek, hel, he⟩ := h
    rw [toks_inner (by rw [hk]; trivial), hc, toks_cons, toks_leaf hkw, toks_cons, toks_leaf hl, toks_cons,
      toks_expr c hcc, toks_cons, toks_leaf hr, toks_cons, toks_expr t ht, toks_cons, toks_leaf hel,
      toks_expr e he]
    simp [Expr.tokens]
  | .for_ _ kw l v i q r b, n, h => by
    simp only [Written] at h
    obtain ⟨hk, kw', l', v', i', s', r', b', hc, hkw, hl, -, hv, hi, hs, hr, hb⟩ := h
    rw [toks_inner (by rw [hk]; trivial), hc, toks_cons, toks_leaf hkw, toks_cons, toks_leaf hl, toks_cons,
      toks_expr v hv, toks_cons, toks_leaf hi, toks_cons, toks_expr q hs, toks_cons, toks_leaf hr,
      toks_expr b hb]
    simp [Expr.tokens]
  | .while_ _ kw l c r b, n, h => by
    simp only [Written] at h
    obtain ⟨hk, kw', l', c', r', b', hc, hkw, hl, hcc, hr, hb⟩ := h
    rw [toks_inner (by rw [hk]; trivial), hc, toks_cons, toks_leaf hkw, toks_cons, toks_leaf hl, toks_cons,
      toks_expr c hcc, toks_cons, toks_leaf hr, toks_expr b hb]
    simp [Expr.tokens]
  | .repeat_ _ kw b, n, h => by
    simp only [Written] at h
    obtain ⟨hk, kw', b', hc, hkw, hb⟩ := h
    rw [toks_inner (by rw [hk]; trivial), hc, toks_cons, toks_leaf hkw, toks_expr b hb]
    simp [Expr.tokens]
theorem toks_exprs {text : List Byte} : ∀ (x : Exprs) {ns : List TsNode}, WrittenList text x ns →
    toks text ns = x.tokens.map kt
  | .nil, ns, h => by
    simp only [WrittenList] at h
    subst h; rfl
  | .cons e es, ns, h => by
    simp only [WrittenList] at h
    obtain ⟨n, r, rfl, he, hes⟩ := h
    rw [toks_cons, toks_expr e he, toks_exprs es hes]
    simp [Exprs.tokens]
theorem toks_args {text : List Byte} : ∀ (first : Bool) (x : Items) {ns : List TsNode},
    WrittenArgs text first x ns → toks text ns = x.tokens.map kt
  | first, .nil, ns, h => by
    simp only [WrittenArgs] at h
    obtain ⟨-, rfl⟩ := h
    rfl
  | first, .last x, ns, h => by
    simp only [WrittenArgs] at h
    rw [toks_arg x h.2]
    rfl
  | first, .cons x s xs, ns, h => by
    simp only [WrittenArgs] at h
    obtain ⟨a, c, r, rfl, hx, hs, hc, hr⟩ := h
    rw [toks_append, toks_cons, toks_leaf hc, toks_arg x hx, toks_args false xs hr]
    simp [Items.tokens]
theorem toks_arg {text : List Byte} : ∀ (x : Arg) {ns : List TsNode}, WrittenArg text x ns →
    toks text ns = x.tokens.map kt
  | .hole _, ns, h => by
    simp only [WrittenArg] at h
    subst h; rfl
  | .val _ e, ns, h => by
    simp only [WrittenArg] at h
    obtain ⟨n, e', rfl, hk, hc, he⟩ := h
    rw [toks_inner (by rw [hk]; trivial), hc, toks_expr e he]
    rfl
  | .name _ _ m q, ns, h => by
    simp only [WrittenArg] at h
    obtain ⟨n, m', q', rfl, hk, hc, hm, hqk, hq⟩ := h
    rw [toks_inner (by rw [hk]; trivial), hc, toks_cons, toks_expr m hm, toks_leaf hq]
    simp [Arg.tokens]
  | .named _ _ m q e, ns, h => by
    simp only [WrittenArg] at h
    obtain ⟨n, m', q', e', rfl, hk, hc, hm, hqk, hq, he⟩ := h
    rw [toks_inner (by rw [hk]; trivial), hc, toks_cons, toks_expr m hm, toks_cons, toks_leaf hq,
      toks_expr e he]
    simp [Arg.tokens]
  | .pdef .., ns, h => by simp only [WrittenArg] at h
theorem toks_pars {text : List Byte} : ∀ (x : Items) {ns : List TsNode}, WrittenPars text x ns →
    toks text ns = x.tokens.map kt
  | .nil, ns, h => by
    simp only [WrittenPars] at h
    subst h; rfl
  | .last x, ns, h => by
    simp only [WrittenPars] at h
    obtain ⟨p, rfl, hp⟩ := h
    rw [toks_par x hp]
    rfl
  | .cons x s xs, ns, h => by
    simp only [WrittenPars] at h
    obtain ⟨p, c, r, rfl, hp, hc, hr⟩ := h
    rw [toks_cons, toks_par x hp, toks_cons, toks_leaf hc, toks_pars xs hr]
    simp [Items.tokens]
theorem toks_par {text : List Byte} : ∀ (x : Arg) {n : TsNode}, WrittenPar text x n →
    toks text [n] = x.tokens.map kt
  | .val _ e, n, h => by
    simp only [WrittenPar] at h
    obtain ⟨hk, e', hc, he⟩ := h
    rw [toks_inner (by rw [hk]; trivial), hc, toks_expr e he]
    rfl
  | .pdef _ m _ q e, n, h => by
    simp only [WrittenPar] at h
    obtain ⟨hk, m', q', e', hc, hm, hqk, hq, he⟩ := h
    rw [toks_inner (by rw [hk]; trivial), hc, toks_cons, toks_expr m hm, toks_cons, toks_leaf hq,
      toks_expr e he]
    simp [Arg.tokens]
  | .hole .., n, h => by simp only [WrittenPar] at h
  | .name .., n, h => by simp only [WrittenPar] at h
  | .named .., n, h => by simp only [WrittenPar] at h
end

/-- The tokens of the tree of a program are those of the program. -/
theorem toks_root {text : List Byte} {es : Exprs} {root : TsNode} (h : WrittenRoot text es root) :
    leafTexts text (leaves root) = es.tokens.map kt := by
  have : toks text [root] = es.tokens.map kt := by
    rw [toks_inner (by rw [h.1]; trivial), toks_exprs es h.2]
  simpa [toks, leavesList] using this

end Verif.Whole
