import Verif.Lemmas.FactoryParsed
import Verif.Props.EndToEnd

/-!
# C58: nodes and their fields

The factory keeps the children of a node in order, gives up on a node only if its children cannot be distributed
over its slots, and does not panic on trees from the parser; for texts that R accepts every field that the
formatter asks for is there.
-/

namespace Verif.Whole
open Verif.Syntax Verif.Parser Verif.Format

/-- C58: no token is lost or moved, whatever the tree, also in nodes that are bogus. -/
theorem C58_lossless (t : Tree) (s : Slot) (h : t.slotted = some s) : s.tokens = t.tokens :=
  (slotted_tokens t h).1

theorem toBogus_ne {k : Kind} {ps : List (Kind → Bool)} (h : slotTests k = some ps) : k.toBogus ≠ k := by
  cases k <;> first | (cases h; done) | decide

theorem tests_known {k : Kind} {ps : List (Kind → Bool)} (h : slotTests k = some ps) :
    makeSyntax k = fun cs => match fillSlots ps cs with
      | some slots => some (.node k slots)
      | none => some (.node k.toBogus cs) := by
  funext cs
  have hn : isNodeKind k = true := by
    cases k <;> first | rfl | (cases h; done)
  have hs : nodeSlots k cs = fillSlots ps cs := by
    cases k <;> first | (cases h; done) | (simp only [nodeSlots, h, Option.bind_some])
  simp only [makeSyntax, hn, hs, if_true]
  cases fillSlots ps cs <;> rfl

/-- C58: a node that is not a list keeps its kind if and only if its children can be distributed over its
slots, in order and each where its kind is expected; its slots are then such a distribution. Otherwise it becomes
bogus, with the same children. -/
theorem C58_slots (k : Kind) (ps : List (Kind → Bool)) (hk : slotTests k = some ps) (cs : List Slot)
    (hc : ∀ c ∈ cs, c.isEmpty = false) :
    (∃ slots, makeSyntax k cs = some (.node k slots) ∧ Distributed ps cs slots) ∨
      makeSyntax k cs = some (.node k.toBogus cs) ∧ k.toBogus ≠ k ∧ ¬ ∃ slots, Distributed ps cs slots := by
  rw [tests_known hk]
  simp only
  cases h : fillSlots ps cs with
  | some slots => exact .inl ⟨slots, rfl, fillSlots_sound hc h⟩
  | none =>
    refine .inr ⟨rfl, toBogus_ne hk, fun ⟨slots, hd⟩ => ?_⟩
    have := fillSlots_complete hd
    rw [h] at this
    cases this

/-- C58: a list of arguments or parameters keeps its kind if and only if all children are elements or commas; its
slots are then the children in order, with elements in the even slots and commas in the odd ones, and empty
slots where one is missing. -/
theorem C58_lists (par : Bool) (cs : List Slot) (hc : ∀ c ∈ cs, c.isEmpty = false) :
    let list : Kind := if par then .rParameterList else .rArgumentList
    let elem : Kind := if par then .rParameter else .rArgument
    (∃ slots, makeSyntax list cs = some (.node list slots) ∧ slots.filter (fun s => !s.isEmpty) = cs ∧
        (∀ i s k, slots[i]? = some s → s.kind? = some k → k = if i % 2 = 0 then elem else .comma) ∧
        ∀ c ∈ cs, c.kind? = some elem ∨ c.kind? = some .comma) ∨
      makeSyntax list cs = some (.node .rBogus cs) ∧
        ∃ c ∈ cs, c.kind? ≠ some elem ∧ c.kind? ≠ some .comma := by
  intro list elem
  have hm : makeSyntax list cs = (match fillSeparated (· == elem) .comma true true cs with
      | some slots => some (.node list slots)
      | none => some (.node .rBogus cs)) := by
    cases par
    · show (match fillSeparated (· == .rArgument) .comma true true cs with | some _ => _ | none => _) = _
      rfl
    · show (match fillSeparated (· == .rParameter) .comma true true cs with | some _ => _ | none => _) = _
      rfl
  have hi := fillSeparated_some (fits := (· == elem)) (sep := .comma) (cs := cs) (b := true) (f := true)
  have any_eq : ∀ c : Slot, c.kind?.any (· == elem) = true ↔ c.kind? = some elem := by
    intro c; cases c.kind? <;> simp
  rw [hm]
  cases h : fillSeparated (· == elem) .comma true true cs with
  | some slots =>
    rw [h] at hi
    refine .inl ⟨slots, rfl, fillSeparated_keeps hc h, fun i s k hs hk => ?_, fun c hcs => ?_⟩
    · have := fillSeparated_alternates h i s hs
      rw [hk] at this
      by_cases hp : i % 2 = 0 <;> simpa [hp] using this
    · have := List.all_eq_true.1 hi.symm c hcs
      simpa [any_eq] using this
  | none =>
    rw [h] at hi
    refine .inr ⟨rfl, ?_⟩
    have := hi.symm
    simp only [Option.isSome_none] at this
    rw [List.all_eq_false] at this
    obtain ⟨c, hcs, h'⟩ := this
    refine ⟨c, hcs, fun e => h' ?_, fun e => h' ?_⟩
    · simp [e]
    · simp [e]

/-- C58: the factory does not panic on what the parser makes of any tree of tree-sitter. -/
theorem C58_no_panic (text : List Byte) (root : TsNode) (err b : Bool) (t : Tree)
    (h : parse text root err = some (t, b)) : ∃ s, t.slotted = some s :=
  Option.isSome_iff_exists.1 (known_slotted t (known_parse h))

/-- C58: what the formatter sees is the whole text, for every tree that covers the text. -/
theorem C58_whole (text : List Byte) (root : TsNode) (hs : ShapedRoot root) (he : root.stop = text.length)
    (ht : Tiled text text.length 0 false (leaves root)) (x : Root) (h : seenRoot text root = some x) :
    ((x.es.tokens ++ [x.eof]).map Token.full).flatten = text := by
  simp only [seenRoot, Option.bind_eq_some_iff] at h
  obtain ⟨⟨t, b⟩, h1, s, h2, h3⟩ := h
  have h4 := C58_lossless t s h2
  rw [castRoot_tokens h3] at h4
  obtain ⟨t', h5, h6⟩ := C32_lossless text root hs he ht
  rw [h5] at h1
  cases h1
  rw [h4, ← h6.1, Tree.full]

/-- C58: if R reads the text as the program `p`, and tree-sitter gives the tree of `p`, then no node is bogus, all
fields that the formatter asks for are there, and what it sees is `p` except for white space and comments (`bare`
compares programs without them, and with the line ends that R sees in strings). -/
theorem C58_fields {text : List Byte} {root : TsNode} {p : Exprs} (ha : Agrees text root p)
    (hr : readText (lf text) = some p.bare) (hl : LineEnds text root) :
    ∃ t s x, parse text root false = some (t, false) ∧
      t.slotted = some s ∧ s.genuine ∧ castRoot s = some x ∧
      ((x.es.tokens ++ [x.eof]).map Token.full).flatten = text ∧ x.es.bare = p.bare := by
  obtain ⟨x, s, hx, h1, h2, h3⟩ := parsed_slots ha hr hl
  exact ⟨_, s, x, hx.parse, h1, h2, h3, hx.bytes, (parsed_program ha hr hl hx).2.1⟩

/-! ## A loop over `...`

R accepts `...` and `..1` as the variable of a loop (`SYMBOL` in `gram.y`), the grammar of syntax trees does not
(`r.ungram:157-164`). tree-sitter reports an error for such files, which is why `Written` says that the variable is an
identifier. If it did not, the loop would be bogus, and so would the list of expressions be. -/

/-- `for (... in x) 1` -/
def dotsLoop : Root :=
  ⟨{}, .cons (.for_ {} ⟨.forKw, [], Ex.tx "for", []⟩ ⟨.lParen, [], Ex.tx "(", []⟩ (.atom {} .rDots ⟨.dots, [], Ex.tx "...", []⟩)
    ⟨.inKw, [], Ex.tx "in", []⟩ (.atom {} .rIdentifier ⟨.ident, [], Ex.tx "x", []⟩) ⟨.rParen, [], Ex.tx ")", []⟩
    (.atom {} .rDoubleValue ⟨.rDoubleLiteral, [], Ex.tx "1", []⟩)) .nil, ⟨.eof, [], [], []⟩⟩

/-- The kinds of the nodes on the way to the first child. -/
def spine : Slot → List Kind
  | .node k ss => k :: spineFirst ss
  | _ => []
where
  spineFirst : List Slot → List Kind
    | [] => []
    | .empty :: ss => spineFirst ss
    | s :: _ => spine s

theorem C58_dots_loop : dotsLoop.es.gram = true ∧ dotsLoop.es.loops = false ∧
    (fileTree dotsLoop).slotted.map spine = some [.rBogus, .rBogus, .rBogus] ∧
    ((fileTree dotsLoop).slotted.bind castRoot).isNone = true := by
  decide +kernel

/-! ## Concrete cases

`f(,x)`: the argument before the comma is a hole, with two empty slots. -/

/-- The kinds of what is in the slots. -/
def layout : Slot → List (Option Kind)
  | .node _ ss => ss.map Slot.kind?
  | _ => []

example : ((makeSyntax .rArgument []).map layout, (makeSyntax .rIfStatement [.token ⟨.ifKw, [], [], []⟩]).map layout) =
    (some [none, none], some [some .ifKw, none, none, none, none, none]) := by decide +kernel
example : ((makeSyntax .rArgumentList [.token ⟨.comma, [], [], []⟩]).map layout,
    (makeSyntax .rCallArguments [.token ⟨.rParen, [], [], []⟩, .token ⟨.lParen, [], [], []⟩]).bind Slot.kind?) =
    (some [none, some .comma, none], some .rBogus) := by decide +kernel
example : (seenRoot demoText demo).map (fun x => x.es.tokens.map Token.text) =
    some [Ex.tx "f", Ex.tx "(", Ex.tx ",", Ex.tx "x", Ex.tx ")"] := by decide +kernel

end Verif.Whole
