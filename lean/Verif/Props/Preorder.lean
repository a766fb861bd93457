import Verif.Model.Preorder
import Verif.Lemmas.Parser

/-!
# C52: the walk over the concrete tree
-/

namespace Verif.Parser

/-! ## Specification -/

mutual
/-- Every node is entered before and left after its children. -/
def visits : TsNode → List WalkEvent
  | .mk k f s e cs => .enter (.mk k f s e cs) :: visitsAll cs ++ [.leave (.mk k f s e cs)]
def visitsAll : List TsNode → List WalkEvent
  | [] => []
  | n :: ns => visits n ++ visitsAll ns
end

/-- The events from the first `leave` on that has no `enter` in the list; `d`: nodes entered so far. -/
def toLeave : Nat → List WalkEvent → List WalkEvent
  | _, [] => []
  | d, .enter _ :: es => toLeave (d + 1) es
  | 0, .leave n :: es => .leave n :: es
  | d + 1, .leave _ :: es => toLeave d es

/-- What a user of the iterator does. -/
inductive IterOp | next | skip

/-- What a user observes: the returned event (of `next`), and what `peek` and `peek_field_name` say
afterwards; the field name is only meaningful if there is a next event. -/
structure Observed where
  returned : Option WalkEvent
  peek : Option WalkEvent
  field : Option Field

/-- The iterator, used in any way. -/
def Preorder.observe (p : Preorder) : List IterOp → List Observed
  | [] => []
  | .next :: ops =>
    ⟨p.step.1, p.step.2.peek, p.step.2.peek.map fun _ => p.step.2.peekFieldName⟩ ::
      p.step.2.observe ops
  | .skip :: ops =>
    ⟨none, p.skipSubtree.peek, p.skipSubtree.peek.map fun _ => p.skipSubtree.peekFieldName⟩ ::
      p.skipSubtree.observe ops

/-- The same on a list of events that are still to come. -/
def observeList (es : List WalkEvent) : List IterOp → List Observed
  | [] => []
  | .next :: ops =>
    ⟨es.head?, es.tail.head?, es.tail.head?.map fun e => e.node.field⟩ :: observeList es.tail ops
  | .skip :: ops =>
    ⟨none, (toLeave 0 es).head?, (toLeave 0 es).head?.map fun e => e.node.field⟩ ::
      observeList (toLeave 0 es) ops

/-! ## The iterator and the list -/

/-- Events after the node the cursor is on was left. -/
def afterNode : List TsNode → List (TsNode × List TsNode) → List WalkEvent
  | right, [] => visitsAll right
  | right, (n, ns) :: up => visitsAll right ++ .leave n :: afterNode ns up

/-- The events that are still to come. -/
inductive Upcoming : Preorder → List WalkEvent → Prop
  | done (c : Cursor) : Upcoming ⟨c, none⟩ []
  | enter (c : Cursor) (h : c.up = [] → c.right = []) :
    Upcoming ⟨c, some (.enter c.node)⟩ (visits c.node ++ afterNode c.right c.up)
  | leave (c : Cursor) (h : c.up = [] → c.right = []) :
    Upcoming ⟨c, some (.leave c.node)⟩ (.leave c.node :: afterNode c.right c.up)

/-- Right siblings exist only below the root of the cursor. -/
def RootAlone : List (TsNode × List TsNode) → Prop
  | [] => True
  | [(_, ns)] => ns = []
  | _ :: up => RootAlone up

theorem rootAlone_tail {x : TsNode × List TsNode} {up : List (TsNode × List TsNode)}
    (h : RootAlone (x :: up)) : RootAlone up ∧ (up = [] → x.2 = []) := by
  cases up with
  | nil => exact ⟨trivial, fun _ => h⟩
  | cons y up => exact ⟨h, fun h => by cases h⟩

theorem rootAlone_cons {x : TsNode × List TsNode} {up : List (TsNode × List TsNode)}
    (h : RootAlone up) (hx : up = [] → x.2 = []) : RootAlone (x :: up) := by
  cases up with
  | nil => exact hx rfl
  | cons y up => exact h

mutual
theorem toLeave_visits (d : Nat) : (n : TsNode) → (es : List WalkEvent) →
    toLeave d (visits n ++ es) = toLeave d es
  | .mk k f s e cs, es => by
    rw [visits, List.cons_append, List.cons_append, List.append_assoc]
    have h := toLeave_visitsAll (d + 1) cs ([.leave (.mk k f s e cs)] ++ es)
    cases d <;> exact h
theorem toLeave_visitsAll (d : Nat) : (ns : List TsNode) → (es : List WalkEvent) →
    toLeave d (visitsAll ns ++ es) = toLeave d es
  | [], es => rfl
  | n :: ns, es => by
    rw [visitsAll, List.append_assoc, toLeave_visits d n, toLeave_visitsAll d ns]
end

theorem visits_eq (n : TsNode) : visits n = .enter n :: (visitsAll n.children ++ [.leave n]) := by
  obtain ⟨k, f, s, e, cs⟩ := n
  rfl

/-- The head of the upcoming events is what `peek` says, and the cursor is on its node. -/
theorem upcoming_head {p : Preorder} {es : List WalkEvent} (h : Upcoming p es) :
    p.next = es.head? ∧ (p.next.map fun _ => p.peekFieldName) = es.head?.map fun e => e.node.field := by
  cases h with
  | done => exact ⟨rfl, rfl⟩
  | enter c => rw [visits_eq]; exact ⟨rfl, rfl⟩
  | leave c => exact ⟨rfl, rfl⟩

theorem upcoming_step {p : Preorder} {es : List WalkEvent} (h : Upcoming p es)
    (hr : RootAlone p.cursor.up) :
    Upcoming p.step.2 es.tail ∧ RootAlone p.step.2.cursor.up := by
  cases h with
  | done c => exact ⟨.done c, hr⟩
  | enter c h =>
    obtain ⟨n, right, up⟩ := c
    simp only [Preorder.step, Cursor.firstChild]
    rw [visits_eq]
    cases hc : n.children with
    | nil =>
      refine ⟨?_, hr⟩
      exact .leave ⟨n, right, up⟩ h
    | cons m ms =>
      refine ⟨?_, rootAlone_cons hr h⟩
      have := Upcoming.enter ⟨m, ms, (n, right) :: up⟩ (fun h => by cases h)
      simpa [visitsAll, afterNode] using this
  | leave c h =>
    obtain ⟨n, right, up⟩ := c
    simp only [Preorder.step, Cursor.nextSibling, Cursor.parent]
    cases right with
    | cons m ms =>
      refine ⟨?_, hr⟩
      have := Upcoming.enter ⟨m, ms, up⟩ (fun hu => by cases h hu)
      cases up with
      | nil => simpa [visitsAll, afterNode] using this
      | cons x up => simpa [visitsAll, afterNode] using this
    | nil =>
      cases up with
      | nil => exact ⟨.done _, hr⟩
      | cons x up =>
        obtain ⟨m, ms⟩ := x
        obtain ⟨h1, h2⟩ := rootAlone_tail hr
        exact ⟨.leave ⟨m, ms, up⟩ h2, h1⟩

theorem upcoming_skip {p : Preorder} {es : List WalkEvent} (h : Upcoming p es)
    (hr : RootAlone p.cursor.up) :
    Upcoming p.skipSubtree (toLeave 0 es) ∧ RootAlone p.skipSubtree.cursor.up := by
  cases h with
  | done c => exact ⟨.done c, hr⟩
  | enter c h =>
    obtain ⟨n, right, up⟩ := c
    simp only [Preorder.skipSubtree, Cursor.parent]
    rw [toLeave_visits]
    cases up with
    | nil =>
      obtain rfl := h rfl
      exact ⟨.done _, hr⟩
    | cons x up =>
      obtain ⟨m, ms⟩ := x
      obtain ⟨h1, h2⟩ := rootAlone_tail hr
      refine ⟨?_, h1⟩
      rw [afterNode, toLeave_visitsAll]
      exact .leave ⟨m, ms, up⟩ h2
  | leave c h => exact ⟨.leave c h, hr⟩

theorem observe_eq (ops : List IterOp) : ∀ (p : Preorder) (es : List WalkEvent), Upcoming p es →
    RootAlone p.cursor.up → p.observe ops = observeList es ops := by
  induction ops with
  | nil => intros; rfl
  | cons op ops ih =>
    intro p es h hr
    cases op with
    | next =>
      obtain ⟨h1, h2⟩ := upcoming_step h hr
      have h0 := upcoming_head h
      have h3 := upcoming_head h1
      rw [Preorder.observe, observeList, ih _ _ h1 h2]
      simp only [Preorder.peek]
      rw [h3.2, h3.1]
      simp only [Preorder.step, h0.1]
    | skip =>
      obtain ⟨h1, h2⟩ := upcoming_skip h hr
      have h3 := upcoming_head h1
      rw [Preorder.observe, observeList, ih _ _ h1 h2]
      simp only [Preorder.peek]
      rw [h3.2, h3.1]

/-- C52. However the iterator is used, it behaves like the list of visits of the tree: `next` returns
the visits one after the other, `skip_subtree` continues with the `leave` of the innermost node that was
entered and not left, `peek` and `peek_field_name` always speak about the upcoming node. -/
theorem C52_iterator (root : TsNode) (ops : List IterOp) :
    (Preorder.new root).observe ops = observeList (visits root) ops := by
  have h := Upcoming.enter (Cursor.new root) (fun _ => rfl)
  have : visits root = visits (Cursor.new root).node ++ afterNode (Cursor.new root).right (Cursor.new root).up := by
    simp [Cursor.new, afterNode, visitsAll]
  rw [this]
  exact observe_eq ops _ _ h trivial

theorem skip_visits (n : TsNode) (es : List WalkEvent) :
    toLeave 0 (visits n ++ es).tail = .leave n :: es := by
  rw [visits_eq, List.cons_append, List.tail_cons, List.append_assoc, toLeave_visitsAll]
  rfl

/-- C52. Skipping right after a node was entered continues with the `leave` of this node, whatever is
below it. -/
theorem C52_skip (n : TsNode) (es : List WalkEvent) (ops : List IterOp) :
    (observeList (visits n ++ es) (.next :: .skip :: .next :: ops)).map Observed.returned =
      [some (.enter n), none, some (.leave n)] ++ (observeList es ops).map Observed.returned := by
  simp only [observeList, skip_visits]
  rw [visits_eq]
  rfl

/-- The nodes of a tree. -/
inductive Below : TsNode → TsNode → Prop
  | here (n : TsNode) : Below n n
  | child {n c m : TsNode} (hc : c ∈ n.children) (h : Below c m) : Below n m

theorem mem_visitsAll (ns : List TsNode) (e : WalkEvent) :
    e ∈ visitsAll ns ↔ ∃ n ∈ ns, e ∈ visits n := by
  induction ns with
  | nil => simp [visitsAll]
  | cons n ns ih => simp [visitsAll, ih]

/-- C52. Without skipping, the iterator enters and leaves exactly the nodes of the tree, then stops: any
number of further calls return nothing. -/
theorem C52_complete (root : TsNode) (k : Nat) :
    ((Preorder.new root).observe (List.replicate ((visits root).length + k) .next)).map
      Observed.returned = (visits root).map some ++ List.replicate k none := by
  rw [C52_iterator]
  have : ∀ es : List WalkEvent, (observeList es (List.replicate (es.length + k) .next)).map
      Observed.returned = es.map some ++ List.replicate k none := by
    intro es
    induction es with
    | nil =>
      simp only [List.length_nil, Nat.zero_add, List.map_nil, List.nil_append]
      induction k with
      | zero => rfl
      | succ k ih => simp only [List.replicate_succ, observeList, List.map_cons, List.tail_nil, ih]; rfl
    | cons e es ih =>
      rw [show (e :: es).length + k = (es.length + k) + 1 by simp; omega, List.replicate_succ]
      simp [observeList, ih]
  exact this _

/-- C52. The nodes that are visited are exactly the nodes of the tree. -/
theorem C52_visits (root m : TsNode) :
    (.enter m ∈ visits root ↔ Below root m) ∧ (.leave m ∈ visits root ↔ Below root m) := by
  constructor
  all_goals
    refine ⟨?_, fun h => ?_⟩
  case left.refine_1 | right.refine_1 =>
    induction root using TsNode.induct with
    | h k f s e cs ih =>
      intro h
      rw [visits_eq] at h
      simp only [List.mem_cons, List.mem_append, mem_visitsAll, reduceCtorEq, false_or, or_false,
        WalkEvent.enter.injEq, WalkEvent.leave.injEq, List.not_mem_nil, List.mem_singleton] at h
      rcases h with h | h
      all_goals
        first
        | (subst h; exact .here _)
        | (obtain ⟨c, hc, h⟩ := h; exact .child hc (ih c hc h))
  all_goals
    induction h with
    | here n => rw [visits_eq]; simp
    | child hc _ ih =>
      rw [visits_eq]
      simp only [List.mem_cons, List.mem_append, mem_visitsAll]
      exact .inr (.inl ⟨_, hc, ih⟩)

/-! ## Example -/

section Example

def leaf (k : Syntax.Kind) (i : Nat) : TsNode := .mk k .other i (i + 1) []

/-- `f(a, b)`. -/
def callTree : TsNode :=
  .mk .rCall .none 0 7 [leaf .rIdentifier 0,
    .mk .rCallArguments .arguments 1 7 [leaf .lParen 1, leaf .rIdentifier 2, leaf .comma 3,
      leaf .rIdentifier 5, leaf .rParen 6]]

/-- What is returned, as kinds and positions; `true`: entered. -/
def told (o : Observed) : Option (Bool × Syntax.Kind × Nat) :=
  o.returned.map fun
    | .enter n => (true, n.kind, n.start)
    | .leave n => (false, n.kind, n.start)

/-- The arguments are entered and skipped. -/
example : ((Preorder.new callTree).observe [.next, .next, .next, .next, .skip, .next, .next, .next]).map told =
    [some (true, .rCall, 0), some (true, .rIdentifier, 0), some (false, .rIdentifier, 0),
      some (true, .rCallArguments, 1), none, some (false, .rCallArguments, 1), some (false, .rCall, 0),
      none] := by decide

/-- Skipping later gives up the remaining arguments. -/
example : ((Preorder.new callTree).observe [.next, .next, .next, .next, .next, .next, .skip, .next, .next]).map
    told =
    [some (true, .rCall, 0), some (true, .rIdentifier, 0), some (false, .rIdentifier, 0),
      some (true, .rCallArguments, 1), some (true, .lParen, 1), some (false, .lParen, 1), none,
      some (false, .rCallArguments, 1), some (false, .rCall, 0)] := by decide

/-- The field name of the upcoming arguments. -/
example : ((Preorder.new callTree).observe [.next, .next, .next]).map Observed.field =
    [some .other, some .other, some .arguments] := by decide

end Example

end Verif.Parser
