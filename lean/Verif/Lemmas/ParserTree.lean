import Verif.Lemmas.Parser

/-! # The tree sink on well nested events, and the tokens of the specified tree -/

namespace Verif.Parser

open Syntax

theorem PTree.induct {P : PTree → Prop} (h1 : ∀ k e, P (.tok k e))
    (h2 : ∀ k cs, (∀ c ∈ cs, P c) → P (.node k cs)) : ∀ t, P t := fun t =>
  PTree.rec (motive_1 := P) (motive_2 := fun cs => ∀ c ∈ cs, P c)
    h1 (fun k cs ih => h2 k cs ih) (by simp)
    (fun c cs h1 h2 => by simpa using ⟨h1, h2⟩) t

mutual
/-- Tokens of a tree: kind and end. -/
def ptoks : PTree → List (Kind × Nat)
  | .tok k e => [(k, e)]
  | .node _ cs => ptoksList cs
def ptoksList : List PTree → List (Kind × Nat)
  | [] => []
  | t :: ts => ptoks t ++ ptoksList ts
end

theorem ptoksList_append (a b : List PTree) : ptoksList (a ++ b) = ptoksList a ++ ptoksList b := by
  induction a with
  | nil => simp [ptoksList]
  | cons t ts ih => simp [ptoksList, ih]

/-- Build a list of tokens. -/
def fillToks (text : List Byte) : List (Kind × Nat) → Nat → List Trivia →
    Option (List Token × Nat × List Trivia)
  | [], pos, tv => some ([], pos, tv)
  | (k, e) :: r, pos, tv => do
    let (t, pos, tv) ← buildToken text k e pos tv
    let (ts, pos, tv) ← fillToks text r pos tv
    some (t :: ts, pos, tv)

theorem fillToks_append (text : List Byte) (a b : List (Kind × Nat)) (pos : Nat) (tv : List Trivia) :
    fillToks text (a ++ b) pos tv = (fillToks text a pos tv).bind fun (t1, pos, tv) =>
      (fillToks text b pos tv).map fun (t2, pos, tv) => (t1 ++ t2, pos, tv) := by
  induction a generalizing pos tv with
  | nil =>
    simp only [List.nil_append, fillToks, Option.bind_some]
    cases fillToks text b pos tv <;> rfl
  | cons x a ih =>
    obtain ⟨k, e⟩ := x
    simp only [List.cons_append, fillToks]
    cases buildToken text k e pos tv with
    | none => rfl
    | some r =>
      obtain ⟨t, pos, tv⟩ := r
      simp only [Option.bind_eq_bind, Option.bind_some, ih]
      cases fillToks text a pos tv with
      | none => rfl
      | some r =>
        obtain ⟨t1, pos, tv⟩ := r
        simp only [Option.bind_some]
        cases fillToks text b pos tv <;> rfl

mutual
/-- A tree has the shape of another, its tokens given by a list. -/
def Fits : PTree → Tree → Prop
  | .tok k _, .token t => t.kind = k
  | .node k cs, .node k' ds => k = k' ∧ FitsList cs ds
  | _, _ => False
def FitsList : List PTree → List Tree → Prop
  | [], [] => True
  | c :: cs, d :: ds => Fits c d ∧ FitsList cs ds
  | _, _ => False
end

theorem fitsList_append {a b : List PTree} {c d : List Tree} (h1 : FitsList a c) (h2 : FitsList b d) :
    FitsList (a ++ b) (c ++ d) := by
  induction a generalizing c with
  | nil => cases c with
    | nil => simpa using h2
    | cons => simp [FitsList] at h1
  | cons x a ih => cases c with
    | nil => simp [FitsList] at h1
    | cons y c => simp only [FitsList, List.cons_append] at h1 ⊢; exact ⟨h1.1, ih h1.2⟩

theorem tokensList_append (a b : List Tree) :
    Tree.tokensList (a ++ b) = Tree.tokensList a ++ Tree.tokensList b := by
  induction a with
  | nil => simp [Tree.tokensList]
  | cons t ts ih => simp [Tree.tokensList, ih]

theorem buildToken_kind {text : List Byte} {k : Kind} {e pos pos' : Nat} {tv tv' : List Trivia}
    {t : Token} (h : buildToken text k e pos tv = some (t, pos', tv')) : t.kind = k := by
  simp only [buildToken, Option.bind_eq_bind, Option.bind_eq_some_iff, Option.some.injEq,
    Prod.mk.injEq] at h
  obtain ⟨own, _, rfl, _⟩ := h
  rfl

/-- Processing the events of a tree below an open node adds a tree of the same shape whose tokens
are built one after the other. -/
def SinkOk (text : List Byte) (t : PTree) : Prop :=
  (∀ x ∈ ptoks t, x.1 ≠ .eof) →
  ∀ (s : Sink) (k : Kind) (cs : List Tree) (rest : List (Kind × List Tree))
    (toks : List Token) (pos : Nat) (tv : List Trivia),
  s.stack = (k, cs) :: rest → fillToks text (ptoks t) s.textPos s.trivia = some (toks, pos, tv) →
  ∃ tree, (flat t).foldlM (Sink.event text) s =
    some { s with textPos := pos, trivia := tv, stack := (k, cs ++ [tree]) :: rest } ∧
    Fits t tree ∧ tree.tokens = toks

theorem sink_list (text : List Byte) (ts : List PTree) (hok : ∀ t ∈ ts, SinkOk text t)
    (hne : ∀ x ∈ ptoksList ts, x.1 ≠ .eof) (s : Sink) (k : Kind) (cs : List Tree)
    (rest : List (Kind × List Tree)) (toks : List Token) (pos : Nat) (tv : List Trivia)
    (hst : s.stack = (k, cs) :: rest)
    (hf : fillToks text (ptoksList ts) s.textPos s.trivia = some (toks, pos, tv)) :
    ∃ trees, (flats ts).foldlM (Sink.event text) s =
        some { s with textPos := pos, trivia := tv, stack := (k, cs ++ trees) :: rest } ∧
      FitsList ts trees ∧ Tree.tokensList trees = toks := by
  induction ts generalizing s cs toks pos tv with
  | nil =>
    simp only [ptoksList, fillToks, Option.some.injEq, Prod.mk.injEq] at hf
    obtain ⟨rfl, rfl, rfl⟩ := hf
    refine ⟨[], ?_, by simp [FitsList], by simp [Tree.tokensList]⟩
    simp [flats, ← hst]
  | cons t ts ih =>
    simp only [ptoksList, fillToks_append, Option.bind_eq_some_iff, Option.map_eq_some_iff] at hf
    obtain ⟨⟨t1, p1, v1⟩, h1, ⟨t2, p2, v2⟩, h2, h3⟩ := hf
    simp only [Prod.mk.injEq] at h3
    obtain ⟨rfl, rfl, rfl⟩ := h3
    simp only [ptoksList, List.mem_append] at hne
    obtain ⟨tree, e1, f1, k1⟩ := hok t (by simp) (fun x hx => hne x (.inl hx)) s k cs rest t1 p1 v1
      hst h1
    obtain ⟨trees, e2, f2, k2⟩ := ih (fun t ht => hok t (by simp [ht]))
      (fun x hx => hne x (.inr hx))
      { s with textPos := p1, trivia := v1, stack := (k, cs ++ [tree]) :: rest } (cs ++ [tree]) t2 p2
      v2 rfl h2
    refine ⟨tree :: trees, ?_, by simp only [FitsList]; exact ⟨f1, f2⟩, ?_⟩
    · rw [flats, List.foldlM_append, e1]
      simp only [Option.bind_eq_bind, Option.bind_some, e2, List.append_assoc, List.singleton_append]
    · simp [Tree.tokensList, k1, k2]

theorem sink_ok (text : List Byte) (t : PTree) : SinkOk text t := by
  induction t using PTree.induct with
  | h1 kd e =>
    intro hne s k cs rest toks pos tv hst hf
    simp only [ptoks, fillToks, Option.bind_eq_bind, Option.bind_some, Option.bind_eq_some_iff,
      Option.some.injEq, Prod.mk.injEq] at hf
    obtain ⟨⟨t, p1, v1⟩, h1, rfl, rfl, rfl⟩ := hf
    have hk : kd ≠ .eof := hne (kd, e) (by simp [ptoks])
    refine ⟨.token t, ?_, ?_, by simp [Tree.tokens]⟩
    · simp [flat, Sink.event, Sink.token, h1, hk, Sink.push, hst]
    · simp only [Fits]; exact buildToken_kind h1
  | h2 kd ds ih =>
    intro hne s k cs rest toks pos tv hst hf
    rw [ptoks] at hf hne
    obtain ⟨trees, e1, f1, k1⟩ := sink_list text ds ih hne
      { s with stack := (kd, []) :: s.stack } kd [] s.stack toks pos tv rfl hf
    refine ⟨.node kd trees, ?_, by simpa [Fits] using f1, by simp [Tree.tokens, k1]⟩
    rw [flat, List.foldlM_append, List.foldlM_cons]
    simp only [Sink.event, Option.bind_eq_bind, Option.bind_some, e1, List.foldlM_cons,
      List.foldlM_nil, List.nil_append]
    simp [hst, Sink.push]

theorem fitsList_single {t : PTree} {ds : List Tree} (h : FitsList [t] ds) :
    ∃ d, ds = [d] ∧ Fits t d := by
  match ds, h with
  | [d], h => exact ⟨d, rfl, by simpa [FitsList] using h⟩
  | [], h => simp [FitsList] at h
  | _ :: _ :: _, h => simp [FitsList] at h

/-- Building the tree of a root node: its tokens and the end of file. -/
theorem buildTree_root (text : List Byte) (k : Kind) (ts : List PTree) (tv : List Trivia)
    (hne : ∀ x ∈ ptoksList ts, x.1 ≠ .eof) {toks : List Token} {pos : Nat} {tv1 : List Trivia}
    (hf : fillToks text (ptoksList ts ++ [(.eof, text.length)]) 0 tv = some (toks, pos, tv1)) :
    ∃ trees eof, buildTree text (flat (.node k ts)) tv = some (.node k (trees ++ [.token eof])) ∧
      FitsList ts trees ∧ eof.kind = .eof ∧ Tree.tokensList trees ++ [eof] = toks := by
  simp only [fillToks_append, Option.bind_eq_some_iff, Option.map_eq_some_iff] at hf
  obtain ⟨⟨t1, p1, v1⟩, h1, ⟨t2, p2, v2⟩, h2, h3⟩ := hf
  simp only [Prod.mk.injEq] at h3
  obtain ⟨rfl, rfl, rfl⟩ := h3
  obtain ⟨trees, e1, f1, k1⟩ := sink_list text ts (fun t _ => sink_ok text t) hne
    ⟨0, tv, [(k, [])], [], true⟩ k [] [] t1 p1 v1 rfl h1
  simp only [fillToks, Option.bind_eq_bind, Option.bind_some, Option.bind_eq_some_iff,
    Option.some.injEq, Prod.mk.injEq] at h2
  obtain ⟨⟨t, p2, v2⟩, h2, rfl, rfl, rfl⟩ := h2
  refine ⟨trees, t, ?_, f1, buildToken_kind h2, by rw [k1]⟩
  rw [buildTree, flat, List.foldlM_append, List.foldlM_cons]
  simp only [Sink.event, Option.bind_eq_bind, Option.bind_some, e1, List.foldlM_cons,
    List.foldlM_nil, List.nil_append]
  simp [Sink.token, h2, Sink.push]

/-! ## Tokens of the specified tree -/

/-- The tokens among the leaves. -/
def leafToks (ls : List Leaf) : List (Kind × Nat) :=
  (ls.filter fun l => !l.isComment).map fun l => (l.kind, l.stop)

theorem leafToks_append (a b : List Leaf) : leafToks (a ++ b) = leafToks a ++ leafToks b := by
  simp [leafToks]

theorem ptoksList_enclosed (lk : Kind) (inner : List Item → List PTree) (xs : List Item)
    (hi : ∀ o r, xs = o :: r → ptoksList (inner r.dropLast) = ptoksList (Item.all r.dropLast)) :
    ptoksList (enclosed lk inner xs) = ptoksList (Item.all xs) := by
  cases xs with
  | nil => simp [enclosed]
  | cons o r =>
    rw [enclosed, ptoksList_append, ptoksList_append, Item.all_cons, ptoksList_append,
      List.append_assoc]
    congr 1
    rw [ptoksList, ptoks, ptoksList, List.append_nil, hi o r rfl, ← ptoksList_append,
      ← Item.all_append]
    congr 2
    rcases List.eq_nil_or_concat r with rfl | ⟨a, b, rfl⟩
    · rfl
    · simp

theorem takeWhile_dropWhile_all (p : Item → Bool) (xs : List Item) :
    Item.all xs = Item.all (xs.takeWhile p) ++ Item.all (xs.dropWhile p) := by
  rw [← Item.all_append, List.takeWhile_append_dropWhile]

theorem ptoksList_clauseFrom (k clause : Kind) (xs : List Item) :
    ptoksList (clauseFrom k clause xs) = ptoksList (Item.all xs) := by
  rw [takeWhile_dropWhile_all (fun x => x.kind != k) xs, clauseFrom, ptoksList_append,
    ptoksList_append]
  congr 1
  cases xs.dropWhile (fun x => x.kind != k) with
  | nil => rfl
  | cons x r => simp [ptoksList, ptoks]

theorem ptoksList_clauseUpTo (k clause : Kind) (xs : List Item) :
    ptoksList (clauseUpTo k clause xs) = ptoksList (Item.all xs) := by
  rw [takeWhile_dropWhile_all (fun x => x.kind != k) xs, clauseUpTo]
  cases hd : xs.dropWhile (fun x => x.kind != k) with
  | nil =>
    have := takeWhile_dropWhile_all (fun x => x.kind != k) xs
    rw [hd] at this
    rw [this]
  | cons x r =>
    simp only [ptoksList, ptoks, ptoksList_append, Item.all_cons, List.append_assoc]

/-- Items that may stand between the delimiters of an argument list. -/
def ArgItems (xs : List Item) : Prop :=
  ∀ x ∈ xs, x.kind = .rArgument ∨ x.kind = .comma ∨ (x.kind = .comment ∧ x.trees = [])

theorem ptoksList_argGo (op : Kind) (xs : List Item) (prev : Kind) :
    ptoksList (argGo op prev xs) = ptoksList (Item.all xs) := by
  induction xs generalizing prev with
  | nil =>
    rw [argGo]
    split <;> simp [ptoksList, ptoks]
  | cons x xs ih =>
    rw [argGo, ptoksList_append, ptoksList_append, ih, Item.all_cons, ptoksList_append]
    split <;> simp [ptoksList, ptoks]

theorem ptoksList_argList (xs : List Item) (h : ArgItems xs) :
    ptoksList (argList xs) = ptoksList (Item.all xs) := by
  rw [← (argGo_eq .lParen (by decide) (by decide) xs h).2.2, ptoksList_argGo]

theorem ptoksList_arguments {args op cl : Kind} (cs : List TsNode)
    (hd : Delimited op cl (fun k => k = .rArgument ∨ k = .comma ∨ k = .comment) cs) :
    ptoksList [.node args (enclosed .rArgumentList argList (items none cs))] =
      ptoksList (Item.all (items none cs)) := by
  rw [ptoksList, ptoksList, List.append_nil, ptoks]
  refine ptoksList_enclosed _ _ _ fun o r h => ?_
  obtain ⟨o', mid, c, rfl, ho, hc, hm⟩ := hd
  rw [List.cons_append, items_none_cons, items_append, List.cons.injEq] at h
  obtain ⟨_, rfl⟩ := h
  have hs : items none [c] = [⟨c.kind, conv c⟩] := by simp [items_none]
  rw [hs, List.dropLast_concat]
  refine ptoksList_argList _ fun x hx => ?_
  obtain ⟨n, hn, rfl⟩ := mem_items_none hx
  rcases (hm n hn).2.2 with h | h | h
  · exact .inl h
  · exact .inr (.inl h)
  · exact .inr (.inr ⟨h, conv_comment h⟩)

theorem ptoksList_items_none (cs : List TsNode)
    (h : ∀ c ∈ cs, ptoksList (conv c) = leafToks (leaves c)) :
    ptoksList (Item.all (items none cs)) = leafToks (leavesList cs) := by
  induction cs with
  | nil => simp [items, leavesList, leafToks, ptoksList]
  | cons c cs ih =>
    rw [items_none_cons, Item.all_cons, ptoksList_append, leavesList, leafToks_append,
      h c (by simp), ih fun c hc => h c (by simp [hc])]

/-- The specified tree has the tokens of the leaves, in order. -/
theorem ptoks_conv (n : TsNode) : (Shaped n → ptoksList (conv n) = leafToks (leaves n)) ∧
    ∀ d ∈ n.children, Shaped d → ptoksList (conv d) = leafToks (leaves d) := by
  induction n using TsNode.induct with
  | h k f s e cs ih =>
  refine ⟨fun hs => ?_, fun d hd => (ih d hd).1⟩
  have hg : ShapedList none cs → ptoksList (Item.all (items none cs)) = leafToks (leavesList cs) :=
    fun h => ptoksList_items_none cs fun c hc => (ih c hc).1 (shapedList_none h c hc)
  rw [leaves, conv]
  rw [Shaped] at hs
  cases hk : classify k <;> simp only [hk] at hs ⊢ <;>
    simp only [ptoksList, ptoks, List.append_nil]
  case node => exact hg hs
  case call args =>
    clear hg hk
    induction cs with
    | nil => simp [items, leavesList, leafToks, ptoksList]
    | cons c cs ihc =>
      obtain ⟨k', f', s', e', ds⟩ := c
      simp only [ShapedList] at hs
      obtain ⟨hs1, hs2⟩ := hs
      have ihc := ihc (fun c hc => ih c (by simp [hc])) hs2
      obtain ⟨g1, g2⟩ := ih (.mk k' f' s' e' ds) (by simp)
      rw [leavesList, leafToks_append, ← ihc]
      by_cases hf : f' = .arguments
      · subst hf
        obtain ⟨hu, hl, op, cl, hd, hsh, _⟩ := hs1
        have hlv : leaves (.mk k' .arguments s' e' ds) = leavesList ds := by simp [leaves, hu]
        simp only [items, Item.all_cons]
        rw [ptoksList_append, ptoksList_arguments ds hsh, hlv,
          ptoksList_items_none ds fun c hc => g2 c hc (shapedList_none hl c hc)]
      · have hsh : Shaped (.mk k' f' s' e' ds) := by
          revert hs1; cases f' <;> simp_all
        have hi : items (some args) (.mk k' f' s' e' ds :: cs) =
            ⟨k', conv (.mk k' f' s' e' ds)⟩ :: items (some args) cs := by
          rw [items]; intro a h1 h2; exact hf h2
        rw [hi, Item.all_cons, ptoksList_append, g1 hsh]
  case parameters => rw [ptoksList_enclosed _ _ _ fun _ _ _ => rfl]; exact hg hs.1
  case parameter => rw [ptoksList_clauseFrom]; exact hg hs.1
  case ifStatement => rw [ptoksList_clauseFrom]; exact hg hs.1
  case argument => rw [ptoksList_clauseUpTo]; exact hg hs.1
  case braced => rw [ptoksList_enclosed _ _ _ fun _ _ _ => rfl]; exact hg hs.1
  all_goals simp [leafToks]

end Verif.Parser
