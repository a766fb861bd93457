import Verif.Spec.Parser

/-! # The walk produces the specified events and visits the leaves in order -/

namespace Verif.Parser

open Syntax

/-- Induction over tree-sitter trees. -/
theorem TsNode.induct {P : TsNode → Prop}
    (h : ∀ k f s e cs, (∀ c ∈ cs, P c) → P (.mk k f s e cs)) : ∀ n, P n := fun n =>
  TsNode.rec (motive_1 := P) (motive_2 := fun cs => ∀ c ∈ cs, P c)
    (fun k f s e cs ih => h k f s e cs ih) (by simp)
    (fun c cs h1 h2 => by simpa using ⟨h1, h2⟩) n

/-- Effect of a leaf on the position. -/
def leafStep (text : List Byte) (p : Pos) (l : Leaf) : Option Pos :=
  if l.isComment then commentStep text l.start l.stop p else tokenStep text l.start l.stop p

/-- Effect of a list of leaves. -/
def leafFold (text : List Byte) (ls : List Leaf) (p : Pos) : Option Pos :=
  ls.foldlM (leafStep text) p

@[simp] theorem leafFold_nil (text : List Byte) (p : Pos) : leafFold text [] p = some p := rfl

theorem leafFold_cons (text : List Byte) (l : Leaf) (ls : List Leaf) (p : Pos) :
    leafFold text (l :: ls) p = (leafStep text p l).bind (leafFold text ls) := by
  simp only [leafFold, List.foldlM_cons]; rfl

theorem leafFold_append (text : List Byte) (a b : List Leaf) (p : Pos) :
    leafFold text (a ++ b) p = (leafFold text a p).bind (leafFold text b) := by
  simp only [leafFold, List.foldlM_append]; rfl

@[simp] theorem flats_nil : flats [] = [] := by simp [flats]
theorem flats_append (a b : List PTree) : flats (a ++ b) = flats a ++ flats b := by
  induction a with
  | nil => simp
  | cons t ts ih => simp [flats, ih]
theorem flats_single (t : PTree) : flats [t] = flat t := by simp [flats]
theorem flats_cons (t : PTree) (ts : List PTree) : flats (t :: ts) = flat t ++ flats ts := by
  simp [flats]
theorem flat_node (k : Kind) (cs : List PTree) :
    flat (.node k cs) = .start k :: (flats cs ++ [.finish]) := by simp [flat]
theorem flat_tok (k : Kind) (e : Nat) : flat (.tok k e) = [.token k e] := by simp [flat]

theorem leavesList_append (a b : List TsNode) :
    leavesList (a ++ b) = leavesList a ++ leavesList b := by
  induction a with
  | nil => simp [leavesList]
  | cons c cs ih => simp [leavesList, ih]

theorem items_append (call : Option Kind) (a b : List TsNode) :
    items call (a ++ b) = items call a ++ items call b := by
  induction a with
  | nil => simp [items]
  | cons c cs ih => obtain ⟨k, f, s, e, ds⟩ := c; simp [items, ih]

theorem Item.all_append (a b : List Item) : Item.all (a ++ b) = Item.all a ++ Item.all b := by
  simp [Item.all]
@[simp] theorem Item.all_nil : Item.all [] = [] := rfl
theorem Item.all_cons (a : Item) (b : List Item) : Item.all (a :: b) = a.trees ++ Item.all b := by
  simp [Item.all]

theorem items_none (cs : List TsNode) :
    items none cs = cs.map fun c => ⟨c.kind, conv c⟩ := by
  induction cs with
  | nil => simp [items]
  | cons c cs ih => obtain ⟨k, f, s, e, ds⟩ := c; simp [items, ih, TsNode.kind]

/-- The result of walking something with given leaves and trees. -/
def after (text : List Byte) (ls : List Leaf) (ts : List PTree) (w : Walk) : Option Walk :=
  (leafFold text ls w.pos).map fun p => ⟨w.events ++ flats ts, p⟩

theorem after_append (text : List Byte) (l1 l2 : List Leaf) (t1 t2 : List PTree) (w : Walk) :
    after text (l1 ++ l2) (t1 ++ t2) w = (after text l1 t1 w).bind (after text l2 t2) := by
  simp only [after, leafFold_append, flats_append]
  cases leafFold text l1 w.pos with
  | none => rfl
  | some p => simp [after]

@[simp] theorem after_nil (text : List Byte) (w : Walk) : after text [] [] w = some w := by
  simp [after]

/-- Walking a node does what is specified. -/
def Good (text : List Byte) (n : TsNode) : Prop :=
  ∀ w, walkNode text n w = after text (leaves n) (conv n) w

/-- A child that a loop just walks. -/
def Neutral (l : Loop) (c : TsNode) : Prop :=
  (∀ w, l.before c.kind c.field w = some w) ∧ (∀ w, l.after c.kind w = w) ∧ l.next c.kind = l ∧
    ¬ ∃ args, l = .call args ∧ c.field = .arguments

theorem walkKids_cons (text : List Byte) (l : Loop) (c : TsNode) (rest : List TsNode) (w : Walk)
    (h : ¬ ∃ args, l = .call args ∧ c.field = .arguments) :
    walkKids text l (c :: rest) w = (l.before c.kind c.field w).bind fun w =>
      (walkNode text c w).bind fun w => walkKids text (l.next c.kind) rest (l.after c.kind w) := by
  obtain ⟨k, f, s, e, cs⟩ := c
  rw [walkKids]
  · rfl
  · intro args h1 h2
    exact h ⟨args, h1, h2⟩

theorem walkKids_neutral (text : List Byte) (l : Loop) (cs rest : List TsNode) (w : Walk)
    (hn : ∀ c ∈ cs, Neutral l c) (hg : ∀ c ∈ cs, Good text c) :
    walkKids text l (cs ++ rest) w =
      (after text (leavesList cs) (Item.all (items none cs)) w).bind (walkKids text l rest) := by
  induction cs generalizing w with
  | nil => simp [leavesList, items]
  | cons c cs ih =>
    obtain ⟨h1, h2, h3, h4⟩ := hn c (by simp)
    rw [List.cons_append, walkKids_cons _ _ _ _ _ h4, h1, Option.bind_some, hg c (by simp)]
    have : items none (c :: cs) = ⟨c.kind, conv c⟩ :: items none cs := by simp [items_none]
    rw [this, leavesList, Item.all_cons, after_append]
    cases after text (leaves c) (conv c) w with
    | none => rfl
    | some w1 =>
      simp only [Option.bind_some, h2, h3]
      exact ih w1 (fun c hc => hn c (by simp [hc])) (fun c hc => hg c (by simp [hc]))

theorem walkKids_nil (text : List Byte) (l : Loop) (w : Walk) :
    walkKids text l [] w = some (l.done w) := by rw [walkKids]

theorem neutral_plain (c : TsNode) : Neutral .plain c :=
  ⟨fun _ => rfl, fun _ => rfl, rfl, by rintro ⟨_, h, _⟩; cases h⟩

theorem walkKids_plain (text : List Byte) (cs : List TsNode) (w : Walk)
    (hg : ∀ c ∈ cs, Good text c) :
    walkKids text .plain cs w = after text (leavesList cs) (Item.all (items none cs)) w := by
  have := walkKids_neutral text .plain cs [] w (fun c _ => neutral_plain c) hg
  rw [List.append_nil] at this
  rw [this]
  cases after text (leavesList cs) (Item.all (items none cs)) w with
  | none => rfl
  | some w1 => simp [walkKids_nil, Loop.done]

/-- Wrapping a walk into a node. -/
theorem after_node (text : List Byte) (k : Kind) (ls : List Leaf) (ts : List PTree) (w : Walk) :
    ((after text ls ts (w.start k)).bind fun w => some w.finish) =
      after text ls [.node k ts] w := by
  simp only [after, Walk.start, Walk.finish]
  cases leafFold text ls w.pos with
  | none => rfl
  | some p => simp [flats_single, flat_node]

theorem token_after (text : List Byte) (w : Walk) (k : Kind) (s e : Nat) :
    w.token text k s e = after text [⟨false, k, s, e⟩] [.tok k e] w := by
  simp only [after, Walk.token, leafFold_cons, leafStep]
  simp only [Bool.false_eq_true, if_false, flats_single, flat_tok]
  cases tokenStep text s e w.pos <;> rfl

theorem items_none_cons (c : TsNode) (cs : List TsNode) :
    items none (c :: cs) = ⟨c.kind, conv c⟩ :: items none cs := by simp [items_none]

theorem notCall {l : Loop} (c : TsNode) (h : ∀ args, l ≠ .call args) :
    ¬ ∃ args, l = .call args ∧ c.field = .arguments := by
  rintro ⟨a, h1, _⟩; exact h a h1

/-- A loop that opens a list after the first child and closes it before the last. -/
theorem walkKids_enclosed (text : List Byte) (l : Loop) (lk : Kind) (o c : TsNode)
    (mid : List TsNode) (w : Walk) (hl : ∀ args, l ≠ .call args)
    (ho1 : ∀ w, l.before o.kind o.field w = some w) (ho2 : ∀ w, l.after o.kind w = w.start lk)
    (ho3 : l.next o.kind = l) (hc1 : ∀ w, l.before c.kind c.field w = some w.finish)
    (hc2 : ∀ w, l.after c.kind w = w) (hc3 : l.next c.kind = l) (hd : ∀ w, l.done w = w)
    (hn : ∀ n ∈ mid, Neutral l n) (hg : ∀ n ∈ o :: mid ++ [c], Good text n) :
    walkKids text l (o :: mid ++ [c]) w = after text (leavesList (o :: mid ++ [c]))
      (enclosed lk Item.all (items none (o :: mid ++ [c]))) w := by
  have he : enclosed lk Item.all (items none (o :: mid ++ [c])) =
      conv o ++ ([.node lk (Item.all (items none mid))] ++ conv c) := by
    rw [List.cons_append, items_none_cons, items_append, items_none [c]]
    simp [enclosed, Item.all]
  rw [he, List.cons_append, leavesList, leavesList_append, after_append,
    walkKids_cons _ _ _ _ _ (notCall o hl), ho1, Option.bind_some, hg o (by simp)]
  cases after text (leaves o) (conv o) w with
  | none => rfl
  | some w1 =>
    simp only [Option.bind_some, ho2, ho3]
    rw [walkKids_neutral text l mid [c] _ hn (fun n hn => hg n (by simp [hn])), after_append,
      ← after_node]
    cases after text (leavesList mid) (Item.all (items none mid)) (w1.start lk) with
    | none => rfl
    | some w2 =>
      simp only [Option.bind_some]
      rw [walkKids_cons _ _ _ _ _ (notCall c hl), hc1, Option.bind_some, hg c (by simp), leavesList,
        leavesList, List.append_nil]
      cases after text (leaves c) (conv c) w2.finish with
      | none => rfl
      | some w3 => simp [walkKids_nil, hc2, hc3, hd]

/-- A loop that opens a clause at a child of kind `k` and closes it at the end. -/
theorem walkKids_clauseFrom (text : List Byte) (l0 l1 : Loop) (k clause : Kind) (cs : List TsNode)
    (w : Walk) (hs : AtMostOne k cs) (hl : ∀ args, l0 ≠ .call args)
    (hb : ∀ f w, l0.before k f w = some (w.start clause)) (ha : ∀ w, l0.after k w = w)
    (hx : l0.next k = l1) (hd0 : ∀ w, l0.done w = w) (hd1 : ∀ w, l1.done w = w.finish)
    (hn0 : ∀ c : TsNode, c.kind ≠ k → Neutral l0 c)
    (hn1 : ∀ c : TsNode, c.kind ≠ k → Neutral l1 c) (hg : ∀ n ∈ cs, Good text n) :
    walkKids text l0 cs w =
      after text (leavesList cs) (clauseFrom k clause (items none cs)) w := by
  have hall : ∀ a : List TsNode, (∀ n ∈ a, n.kind ≠ k) →
      ∀ x ∈ items none a, (fun x : Item => x.kind != k) x = true := by
    intro a ha
    simp only [items_none, List.mem_map]
    rintro x ⟨n, hn, rfl⟩
    simpa using ha n hn
  have hnk : ∀ a : List TsNode, (∀ n ∈ a, n.kind ≠ k) →
      (items none a).takeWhile (fun x => x.kind != k) = items none a := by
    intro a ha
    simpa using List.takeWhile_append_of_pos (l₂ := []) (hall a ha)
  have hdk : ∀ a : List TsNode, (∀ n ∈ a, n.kind ≠ k) →
      (items none a).dropWhile (fun x => x.kind != k) = [] := by
    intro a ha
    simpa using List.dropWhile_append_of_pos (l₂ := []) (hall a ha)
  rcases hs with hs | ⟨a, c, b, rfl, rfl, hna, hnb⟩
  · have := walkKids_neutral text l0 cs [] w (fun c hc => hn0 c (hs c hc)) hg
    rw [List.append_nil] at this
    rw [this, clauseFrom, hnk cs hs, hdk cs hs]
    simp only [List.append_nil]
    cases after text (leavesList cs) (Item.all (items none cs)) w with
    | none => rfl
    | some w1 => simp [walkKids_nil, hd0]
  · have he : clauseFrom c.kind clause (items none (a ++ c :: b)) =
        Item.all (items none a) ++ [.node clause (conv c ++ Item.all (items none b))] := by
      rw [clauseFrom, items_append, items_none_cons,
        List.takeWhile_append_of_pos (hall a hna),
        List.dropWhile_append_of_pos (hall a hna)]
      simp [Item.all]
    rw [walkKids_neutral text l0 a (c :: b) w (fun n hn => hn0 n (hna n hn))
      (fun n hn => hg n (by simp [hn])), he, leavesList_append, leavesList, after_append]
    cases after text (leavesList a) (Item.all (items none a)) w with
    | none => rfl
    | some w1 =>
      simp only [Option.bind_some]
      rw [walkKids_cons _ _ _ _ _ (notCall c hl), hb, Option.bind_some, hg c (by simp), ← after_node,
        after_append]
      cases after text (leaves c) (conv c) (w1.start clause) with
      | none => rfl
      | some w2 =>
        simp only [Option.bind_some, ha, hx]
        have := walkKids_neutral text l1 b [] w2 (fun n hn => hn1 n (hnb n hn))
          (fun n hn => hg n (by simp [hn]))
        rw [List.append_nil] at this
        rw [this]
        cases after text (leavesList b) (Item.all (items none b)) w2 with
        | none => rfl
        | some w3 => simp [walkKids_nil, hd1]

theorem neutral_argument_false (c : TsNode) (h1 : c.kind ≠ .equal) (h2 : c.field ≠ .name) :
    Neutral (.argument false) c := by
  refine ⟨fun w => ?_, fun w => ?_, ?_, notCall c (by simp)⟩
  · simp [Loop.before, h2]
  · simp [Loop.after, h1]
  · simp [Loop.next, h1]

theorem neutral_argument_true (c : TsNode) (h1 : c.kind ≠ .equal) : Neutral (.argument true) c := by
  refine ⟨fun w => ?_, fun w => ?_, ?_, notCall c (by simp)⟩
  · simp [Loop.before]
  · simp [Loop.after, h1]
  · simp [Loop.next]

theorem mem_items_none {cs : List TsNode} {x : Item} (h : x ∈ items none cs) :
    ∃ n ∈ cs, x = ⟨n.kind, conv n⟩ := by
  rw [items_none, List.mem_map] at h
  obtain ⟨n, hn, rfl⟩ := h
  exact ⟨n, hn, rfl⟩

theorem isNameKind_of {k : Kind} (h : k ∈ nameKinds) : isNameKind k = true := by
  simp only [nameKinds, List.mem_cons, List.not_mem_nil, or_false] at h
  rcases h with rfl | rfl | rfl | rfl | rfl <;> rfl

/-- The loop over the children of an argument. -/
theorem walkKids_argument (text : List Byte) (cs : List TsNode) (w : Walk)
    (hs : ArgumentShape cs) (hg : ∀ n ∈ cs, Good text n) :
    walkKids text (.argument false) cs w = after text (leavesList cs)
      (clauseUpTo .equal .rArgumentNameClause (items none cs)) w := by
  have hall : ∀ a : List TsNode, (∀ n ∈ a, n.kind ≠ .equal) →
      ∀ x ∈ items none a, (fun x : Item => x.kind != .equal) x = true := by
    intro a ha x hx
    obtain ⟨n, hn, rfl⟩ := mem_items_none hx
    simpa using ha n hn
  rcases hs with hs | ⟨n, a, q, b, rfl, hk, hf, hq, ha, hb⟩
  · have := walkKids_neutral text (.argument false) cs [] w
      (fun c hc => neutral_argument_false c (hs c hc).1 (hs c hc).2) hg
    rw [List.append_nil] at this
    have hd : (items none cs).dropWhile (fun x => x.kind != .equal) = [] := by
      simpa using List.dropWhile_append_of_pos (l₂ := []) (hall cs fun n hn => (hs n hn).1)
    rw [this, clauseUpTo, hd]
    cases after text (leavesList cs) (Item.all (items none cs)) w with
    | none => rfl
    | some w1 => simp [walkKids_nil, Loop.done]
  · have hne : n.kind ≠ .equal := by intro h; rw [h] at hk; simp [nameKinds] at hk
    have hk : isNameKind n.kind := isNameKind_of hk
    have he : clauseUpTo .equal .rArgumentNameClause (items none (n :: a ++ q :: b)) =
        [.node .rArgumentNameClause (conv n ++ (Item.all (items none a) ++ conv q))] ++
          Item.all (items none b) := by
      have h1 := hall (n :: a) (by
        intro m hm
        rcases List.mem_cons.mp hm with rfl | hm
        · exact hne
        · exact (ha m hm).1)
      rw [clauseUpTo, items_append, items_none_cons q, List.takeWhile_append_of_pos h1,
        List.dropWhile_append_of_pos h1, items_none_cons n]
      simp [Item.all, hq]
    rw [he, List.cons_append, walkKids_cons _ _ _ _ _ (notCall n (by simp))]
    have hb1 : Loop.before (.argument false) n.kind n.field w = some (w.start .rArgumentNameClause) := by
      simp [Loop.before, hk, hf]
    rw [hb1, Option.bind_some, hg n (by simp), leavesList, leavesList_append, leavesList,
      show leaves n ++ (leavesList a ++ (leaves q ++ leavesList b)) =
        (leaves n ++ (leavesList a ++ leaves q)) ++ leavesList b by simp, after_append, ← after_node,
      after_append]
    cases after text (leaves n) (conv n) (w.start .rArgumentNameClause) with
    | none => rfl
    | some w1 =>
      have h2 : Loop.after (.argument false) n.kind w1 = w1 := by simp [Loop.after, hne]
      have h3 : Loop.next (.argument false) n.kind = .argument false := by simp [Loop.next, hne]
      simp only [Option.bind_some, h2, h3]
      rw [walkKids_neutral text _ a (q :: b) w1
        (fun c hc => neutral_argument_false c (ha c hc).1 (ha c hc).2)
        (fun c hc => hg c (by simp [hc])), after_append]
      cases after text (leavesList a) (Item.all (items none a)) w1 with
      | none => rfl
      | some w2 =>
        simp only [Option.bind_some]
        have h4 : Loop.before (.argument false) q.kind q.field w2 = some w2 := by
          simp [Loop.before, hq, isNameKind]
        rw [walkKids_cons _ _ _ _ _ (notCall q (by simp)), h4, Option.bind_some, hg q (by simp)]
        cases after text (leaves q) (conv q) w2 with
        | none => rfl
        | some w3 =>
          have h5 : Loop.after (.argument false) q.kind w3 = w3.finish := by simp [Loop.after, hq]
          have h6 : Loop.next (.argument false) q.kind = .argument true := by simp [Loop.next, hq]
          simp only [Option.bind_some, h5, h6]
          have := walkKids_neutral text (.argument true) b [] w3.finish
            (fun c hc => neutral_argument_true c (hb c hc)) (fun c hc => hg c (by simp [hc]))
          rw [List.append_nil] at this
          rw [this]
          cases after text (leavesList b) (Item.all (items none b)) w3.finish with
          | none => rfl
          | some w4 => simp [walkKids_nil, Loop.done]

/-! ## Argument lists -/

/-- What the loop over arguments adds to the argument list. -/
def argGo (op : Kind) : Kind → List Item → List PTree
  | prev, [] => if prev = .comma then [.node .rArgument []] else []
  | prev, x :: xs =>
    (if x.kind = .comma ∧ (prev = .comma ∨ prev = op) then [.node .rArgument []] else []) ++
      x.trees ++ argGo op (if x.kind = .comment then prev else x.kind) xs

/-- The groups after the first, with their commas. -/
def restTrees (r : List (Item × List Item)) : List PTree :=
  (r.map fun (c, g) => c.trees ++ argOf g).flatten

theorem argGo_eq (op : Kind) (h1 : op ≠ .comma) (h2 : op ≠ .rArgument) (xs : List Item)
    (hx : ∀ x ∈ xs, x.kind = .rArgument ∨ x.kind = .comma ∨ (x.kind = .comment ∧ x.trees = [])) :
    argGo op .rArgument xs = Item.all (groups xs).1 ++ restTrees (groups xs).2 ∧
    argGo op .comma xs = argOf (groups xs).1 ++ restTrees (groups xs).2 ∧
    argGo op op xs = argList xs := by
  induction xs with
  | nil => simp [argGo, groups, restTrees, argOf, argList, h1]
  | cons x xs ih =>
    obtain ⟨i1, i2, i3⟩ := ih fun y hy => hx y (by simp [hy])
    rcases hx x (by simp) with h | h | ⟨h, ht⟩
    · have hg : groups (x :: xs) = (x :: (groups xs).1, (groups xs).2) := by simp [groups, h]
      have ha : argOf (x :: (groups xs).1) = x.trees ++ Item.all (groups xs).1 := by
        simp [argOf, h, Item.all]
      refine ⟨?_, ?_, ?_⟩
      · simp [argGo, h, hg, i1, Item.all]
      · simp [argGo, h, hg, i1, ha]
      · simp [argGo, h, argList, hg, i1, ha, restTrees]
    · have hg : groups (x :: xs) = ([], (x, (groups xs).1) :: (groups xs).2) := by simp [groups, h]
      refine ⟨?_, ?_, ?_⟩
      · simp [argGo, h, hg, i2, Item.all, restTrees, Ne.symm h2]
      · simp [argGo, h, hg, i2, restTrees, argOf]
      · simp [argGo, h, hg, i2, restTrees, argOf, argList]
    · have hg : groups (x :: xs) = (x :: (groups xs).1, (groups xs).2) := by simp [groups, h]
      have ha : argOf (x :: (groups xs).1) = argOf (groups xs).1 := by
        simp [argOf, h, ht, Item.all]
      refine ⟨?_, ?_, ?_⟩
      · simp [argGo, h, ht, hg, i1, Item.all]
      · simp [argGo, h, ht, hg, i2, ha]
      · simp [argGo, h, ht, i3, argList, hg, ha]

theorem hole_after (text : List Byte) (w : Walk) :
    some w.hole = after text [] [.node .rArgument []] w := by
  simp [Walk.hole, Walk.start, Walk.finish, after, flats_single, flat_node]

/-- The loop over the arguments of a call after the opening delimiter. -/
theorem walkKids_arguments (text : List Byte) (op cl : Kind) (c : TsNode) (mid : List TsNode)
    (prev : Kind) (w : Walk) (hc : c.kind = cl) (hco : cl ≠ op)
    (hm : ∀ n ∈ mid, n.kind ≠ op ∧ n.kind ≠ cl ∧
      (n.kind = .rArgument ∨ n.kind = .comma ∨ n.kind = .comment))
    (hg : ∀ n ∈ mid ++ [c], Good text n) :
    walkKids text (.arguments op cl prev) (mid ++ [c]) w =
      (after text (leavesList mid) (argGo op prev (items none mid)) w).bind fun w1 =>
        after text (leaves c) (conv c) w1.finish := by
  induction mid generalizing prev w with
  | nil =>
    rw [List.nil_append, walkKids_cons _ _ _ _ _ (notCall c (by simp))]
    have hb : Loop.before (.arguments op cl prev) c.kind c.field w =
        some (if prev = .comma then w.hole else w).finish := by
      simp [Loop.before, hc, hco]
    rw [hb, Option.bind_some, hg c (by simp)]
    have hh : after text (leavesList []) (argGo op prev (items none [])) w =
        some (if prev = .comma then w.hole else w) := by
      simp only [leavesList, items, argGo]
      split
      · exact (hole_after text w).symm
      · simp
    rw [hh, Option.bind_some]
    cases after text (leaves c) (conv c) (if prev = .comma then w.hole else w).finish with
    | none => rfl
    | some w1 => simp [Loop.after, Loop.next, hc, hco, walkKids_nil, Loop.done]
  | cons n mid ih =>
    obtain ⟨h1, h2, h3⟩ := hm n (by simp)
    rw [List.cons_append, walkKids_cons _ _ _ _ _ (notCall n (by simp))]
    have hb : Loop.before (.arguments op cl prev) n.kind n.field w =
        some (if n.kind = .comma ∧ (prev = .comma ∨ prev = op) then w.hole else w) := by
      rcases h3 with h | h | h <;> rw [h] at h1 h2 <;> simp [Loop.before, h, h1, h2]
    have ha : ∀ w, Loop.after (.arguments op cl prev) n.kind w = w := by
      intro w; simp [Loop.after, h1]
    rw [hb, Option.bind_some, hg n (by simp), items_none_cons, argGo, leavesList, List.append_assoc,
      ← List.nil_append (leaves n ++ leavesList mid), after_append]
    have hh : after text [] (if n.kind = .comma ∧ (prev = .comma ∨ prev = op) then
        [.node .rArgument []] else []) w =
        some (if n.kind = .comma ∧ (prev = .comma ∨ prev = op) then w.hole else w) := by
      split
      · exact (hole_after text w).symm
      · simp
    rw [hh, Option.bind_some, after_append]
    cases after text (leaves n) (conv n)
        (if n.kind = .comma ∧ (prev = .comma ∨ prev = op) then w.hole else w) with
    | none => rfl
    | some w1 =>
      simp only [Option.bind_some, ha, Loop.next]
      exact ih _ w1 (fun m hm' => hm m (by simp [hm'])) (fun m hm' => hg m (by
        rcases List.mem_append.mp hm' with h | h
        · simp [h]
        · simp [List.mem_singleton.mp h]))

/-! ## The whole walk -/

theorem shapedList_none {cs : List TsNode} (h : ShapedList none cs) : ∀ c ∈ cs, Shaped c := by
  induction cs with
  | nil => simp
  | cons c cs ih =>
    obtain ⟨k, f, s, e, ds⟩ := c
    simp only [ShapedList] at h
    intro c hc
    rcases List.mem_cons.mp hc with rfl | hc
    · exact h.1
    · exact ih h.2 c hc

theorem conv_comment {n : TsNode} (h : n.kind = .comment) : conv n = [] := by
  obtain ⟨k, f, s, e, cs⟩ := n
  obtain rfl : k = .comment := h
  simp [conv, classify]

theorem delimiters_of {args op cl : Kind} (h : (args, op, cl) ∈ brackets) :
    delimiters args = some (op, cl) := by
  simp only [brackets, List.mem_cons, Prod.mk.injEq, List.not_mem_nil, or_false] at h
  rcases h with ⟨rfl, rfl, rfl⟩ | ⟨rfl, rfl, rfl⟩ | ⟨rfl, rfl, rfl⟩ <;> rfl

theorem delimiters_ne {args op cl : Kind} (h : delimiters args = some (op, cl)) :
    op ≠ .comma ∧ op ≠ .rArgument ∧ cl ≠ op ∧ op ≠ .comment := by
  unfold delimiters at h
  split at h <;> simp at h <;> obtain ⟨rfl, rfl⟩ := h <;> decide

/-- The node holding the arguments of a call. -/
theorem walk_arguments (text : List Byte) (args op cl : Kind) (cs : List TsNode) (w : Walk)
    (hd : delimiters args = some (op, cl))
    (hs : Delimited op cl (fun k => k = .rArgument ∨ k = .comma ∨ k = .comment) cs)
    (hg : ∀ n ∈ cs, Good text n) :
    ((walkKids text (.arguments op cl .rBogus) cs (w.start args)).bind fun w => some w.finish) =
      after text (leavesList cs) [.node args (enclosed .rArgumentList argList (items none cs))] w := by
  obtain ⟨h1, h2, h3, _⟩ := delimiters_ne hd
  obtain ⟨o, mid, c, rfl, ho, hc, hm⟩ := hs
  have he : enclosed .rArgumentList argList (items none (o :: mid ++ [c])) =
      conv o ++ ([.node .rArgumentList (argList (items none mid))] ++ conv c) := by
    rw [List.cons_append, items_none_cons, items_append, items_none [c]]
    simp [enclosed, Item.all]
  have hl : argList (items none mid) = argGo op op (items none mid) := by
    refine ((argGo_eq op h1 h2 _ fun x hx => ?_).2.2).symm
    obtain ⟨n, hn, rfl⟩ := mem_items_none hx
    rcases (hm n hn).2.2 with h | h | h
    · exact .inl h
    · exact .inr (.inl h)
    · exact .inr (.inr ⟨h, conv_comment h⟩)
  rw [← after_node, he, hl, List.cons_append, leavesList, leavesList_append, after_append,
    walkKids_cons _ _ _ _ _ (notCall o (by simp))]
  have hb : Loop.before (.arguments op cl .rBogus) o.kind o.field (w.start args) =
      some (w.start args) := by simp [Loop.before, ho]
  rw [hb, Option.bind_some, hg o (by simp)]
  congr 1
  cases after text (leaves o) (conv o) (w.start args) with
  | none => rfl
  | some w1 =>
    have ha : Loop.after (.arguments op cl .rBogus) o.kind w1 = w1.start .rArgumentList := by
      simp [Loop.after, ho]
    have hnx : Loop.next (.arguments op cl .rBogus) o.kind = .arguments op cl op := by
      simp only [Loop.next, ho]
      rw [if_neg]
      exact (delimiters_ne hd).2.2.2
    simp only [Option.bind_some, ha, hnx]
    rw [walkKids_arguments text op cl c mid op _ hc h3 hm (fun n hn => hg n (by
      rcases List.mem_append.mp hn with h | h
      · simp [h]
      · simp [List.mem_singleton.mp h])), after_append, ← after_node]
    cases after text (leavesList mid) (argGo op op (items none mid)) (w1.start .rArgumentList) with
    | none => rfl
    | some w2 => simp [leavesList]

/-- The loop over the children of a call. -/
theorem walkKids_call (text : List Byte) (args : Kind) (cs : List TsNode) (w : Walk)
    (hs : ShapedList (some args) cs)
    (hg : ∀ c ∈ cs, (Shaped c → Good text c) ∧ ∀ d ∈ c.children, Shaped d → Good text d) :
    walkKids text (.call args) cs w =
      after text (leavesList cs) (Item.all (items (some args) cs)) w := by
  induction cs generalizing w with
  | nil => simp [walkKids_nil, Loop.done, leavesList, items]
  | cons c cs ih =>
    obtain ⟨k, f, s, e, ds⟩ := c
    simp only [ShapedList] at hs
    obtain ⟨hs1, hs2⟩ := hs
    have ih := fun w => ih w hs2 fun c hc => hg c (by simp [hc])
    obtain ⟨g1, g2⟩ := hg (.mk k f s e ds) (by simp)
    by_cases hf : f = .arguments
    · subst hf
      obtain ⟨hu, hl, op, cl, hd', hsh, _⟩ := hs1
      have hd := delimiters_of hd'
      have hw := walk_arguments text args op cl ds w hd hsh fun n hn =>
        g2 n hn (shapedList_none hl n hn)
      have hlv : leaves (.mk k .arguments s e ds) = leavesList ds := by simp [leaves, hu]
      rw [leavesList, hlv]
      simp only [items, Item.all_cons]
      rw [after_append, ← hw, walkKids]
      simp only [hd]
      show ((walkKids text (.arguments op cl .rBogus) ds (w.start args)).bind fun w =>
        walkKids text (.call args) cs w.finish) = _
      cases walkKids text (.arguments op cl .rBogus) ds (w.start args) with
      | none => rfl
      | some w1 => simpa using ih w1.finish
    · have hsh : Shaped (.mk k f s e ds) := by
        revert hs1; cases f <;> simp_all
      have hi : items (some args) (.mk k f s e ds :: cs) =
          ⟨k, conv (.mk k f s e ds)⟩ :: items (some args) cs := by
        rw [items]; intro a h1 h2; exact hf h2
      rw [walkKids_cons _ _ _ _ _ (by rintro ⟨a, h1, h2⟩; exact hf h2), hi, leavesList,
        Item.all_cons, after_append]
      show (walkNode text (.mk k f s e ds) w).bind (fun w => walkKids text (.call args) cs w) = _
      rw [g1 hsh]
      congr 1
      exact funext ih

theorem neutral_parameters (c : TsNode) (h : c.kind = .rParameter ∨ c.kind = .comma ∨ c.kind = .comment) :
    Neutral .parameters c := by
  refine ⟨fun w => ?_, fun w => ?_, rfl, notCall c (by simp)⟩
  · rcases h with h | h | h <;> simp [Loop.before, h]
  · rcases h with h | h | h <;> simp [Loop.after, h]

theorem neutral_braced (c : TsNode) (h1 : c.kind ≠ .lCurly) (h2 : c.kind ≠ .rCurly) :
    Neutral .braced c :=
  ⟨fun w => by simp [Loop.before, h2], fun w => by simp [Loop.after, h1], rfl, notCall c (by simp)⟩

theorem neutral_parameter (u : Bool) (c : TsNode) (h : c.kind ≠ .equal) :
    Neutral (.parameter u) c :=
  ⟨fun w => by simp [Loop.before, h], fun w => rfl, by simp [Loop.next, h], notCall c (by simp)⟩

theorem neutral_ifStatement (u : Bool) (c : TsNode) (h : c.kind ≠ .elseKw) :
    Neutral (.ifStatement u) c :=
  ⟨fun w => by simp [Loop.before, h], fun w => rfl, by simp [Loop.next, h], notCall c (by simp)⟩

theorem after_then_node (text : List Byte) (r : Option Walk) (k : Kind) (ls : List Leaf)
    (ts : List PTree) (w : Walk) (h : r = after text ls ts (w.start k)) :
    (r.bind fun w => some w.finish) = after text ls [.node k ts] w := by
  rw [h, after_node]

/-- Walking any node below the root produces the events of the specified tree and visits its
leaves in order. -/
theorem walkNode_good (text : List Byte) (n : TsNode) :
    (Shaped n → Good text n) ∧ ∀ d ∈ n.children, Shaped d → Good text d := by
  induction n using TsNode.induct with
  | h k f s e cs ih =>
  refine ⟨fun hs w => ?_, fun d hd => (ih d hd).1⟩
  have hg : ShapedList none cs → ∀ c ∈ cs, Good text c := fun h c hc =>
    (ih c hc).1 (shapedList_none h c hc)
  rw [walkNode, leaves, conv]
  rw [Shaped] at hs
  cases hk : classify k <;> simp only [hk] at hs ⊢
  case node => exact after_then_node _ _ _ _ _ _ (walkKids_plain text cs _ (hg hs))
  case call args => exact after_then_node _ _ _ _ _ _ (walkKids_call text args cs _ hs ih)
  case parameters =>
    obtain ⟨h1, o, mid, c, rfl, ho, hc, hm⟩ := hs
    refine after_then_node _ _ _ _ _ _ (walkKids_enclosed text _ _ o c mid _ (by simp) ?_ ?_ rfl ?_
      ?_ rfl (fun _ => rfl) (fun n hn => neutral_parameters n (hm n hn).2.2) (hg h1))
    · intro w; simp [Loop.before, ho]
    · intro w; simp [Loop.after, ho]
    · intro w; simp [Loop.before, hc]
    · intro w; simp [Loop.after, hc]
  case parameter =>
    refine after_then_node _ _ _ _ _ _ (walkKids_clauseFrom text (.parameter false)
      (.parameter true) .equal _ cs _ hs.2 (by simp) ?_ (fun _ => rfl) rfl (fun _ => rfl)
      (fun _ => rfl) (neutral_parameter false) (neutral_parameter true) (hg hs.1))
    intro f w; simp [Loop.before]
  case ifStatement =>
    refine after_then_node _ _ _ _ _ _ (walkKids_clauseFrom text (.ifStatement false)
      (.ifStatement true) .elseKw _ cs _ hs.2 (by simp) ?_ (fun _ => rfl) rfl (fun _ => rfl)
      (fun _ => rfl) (neutral_ifStatement false) (neutral_ifStatement true) (hg hs.1))
    intro f w; simp [Loop.before]
  case argument =>
    exact after_then_node _ _ _ _ _ _ (walkKids_argument text cs _ hs.2 (hg hs.1))
  case braced =>
    obtain ⟨h1, o, mid, c, rfl, ho, hc, hm⟩ := hs
    refine after_then_node _ _ _ _ _ _ (walkKids_enclosed text _ _ o c mid _ (by simp) ?_ ?_ rfl ?_
      ?_ rfl (fun _ => rfl) (fun n hn => neutral_braced n (hm n hn).1 (hm n hn).2.1) (hg h1))
    · intro w; simp [Loop.before, ho]
    · intro w; simp [Loop.after, ho]
    · intro w; simp [Loop.before, hc]
    · intro w; simp [Loop.after, hc]
  case value lit =>
    subst hs
    simp only [walkKids_nil, Loop.done]
    exact after_then_node _ _ _ _ _ _ (token_after text _ lit s e)
  case atom lit => exact after_then_node _ _ _ _ _ _ (token_after text _ lit s e)
  case content => exact token_after text w k s e
  case token =>
    subst hs
    simp only [walkKids_nil, Loop.done]
    exact token_after text w k s e
  case comment =>
    subst hs
    simp only [walkKids_nil, Loop.done]
    show (commentStep text s e w.pos).bind (fun p => some { w with pos := p }) = _
    simp only [after, leafFold_cons, leafStep, if_true, flats_nil, List.append_nil]
    cases commentStep text s e w.pos <;> rfl

end Verif.Parser
