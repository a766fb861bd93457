import Verif.Model.Accessors
import Verif.Props.RGrammar
import Verif.Props.Factory

/-!
# C83: the parts of nodes by name
-/

namespace Verif.Ungrammar

open Verif.Syntax (Slot slotTests nodeSlots isNodeKind fillSlots)

/-- The accessor is the one for the part that is set by this name: alternatives of tokens are set with `_token` and read
without. -/
def SameName (accessor setter : Name) : Prop := accessor = setter ∨ accessor ++ "_token".toList = setter

instance (a b : Name) : Decidable (SameName a b) := inferInstanceAs (Decidable (_ ∨ _))

/-- An argument is there if it has to be, and is of the right type. -/
def Suits (optional : Bool) (ty : Name) : Option Slot → Prop
  | none => optional = true
  | some s => fits ty s = true

/-- `Some` or `Ok`, or `None`. -/
def Part.of : Option Slot → Part
  | some s => .there s
  | none => .missing

/-- Reads tokens. -/
def Accessor.isToken (a : Accessor) : Bool := a.how = .token || a.how = .requiredToken

/-- The type of an accessor fits its sort. -/
def Accessor.neat (a : Accessor) : Bool := a.isToken == (a.ty = "SyntaxToken".toList)

theorem fits_token {ty : Name} {s : Slot} (h : fits ty s = true) (ht : ty = "SyntaxToken".toList) : ∃ t, s = .token t := by
  cases s with
  | empty => cases h
  | token t => exact ⟨t, rfl⟩
  | node k ss =>
    subst ht
    exfalso
    have key : (allKinds.all fun k => !fits "SyntaxToken".toList (.node k [])) = true := by decide +kernel
    have := List.all_eq_true.1 key k (mem_allKinds k)
    have e : fits "SyntaxToken".toList (.node k []) = fits "SyntaxToken".toList (.node k ss) := rfl
    rw [e, h] at this
    cases this

/-- A slot with what is of the type of the accessor is read. -/
theorem get_fits {a : Accessor} {slots : List Slot} {o : Option Slot} {opt : Bool} (hn : a.neat = true)
    (hl : a.how = .list → opt = false) (h : Suits opt a.ty o) (hs : slots[a.slot]? = some (o.getD .empty)) :
    a.get slots = Part.of o := by
  rw [Accessor.get, hs]
  cases o with
  | none =>
    simp only [Option.getD_none, Part.of]
    rw [if_neg]
    intro e
    have := hl e
    have h' : opt = true := h
    rw [this] at h'
    cases h'
  | some s =>
    simp only [Option.getD_some, Part.of]
    have hf : fits a.ty s = true := h
    simp only [Accessor.neat, beq_iff_eq] at hn
    cases s with
    | empty => cases hf
    | token t =>
      have ht : a.ty = "SyntaxToken".toList := of_decide_eq_true hf
      have : a.isToken = true := by rw [hn]; exact decide_eq_true ht
      simp only [Accessor.isToken, Bool.or_eq_true, decide_eq_true_eq] at this
      exact if_pos this
    | node k ss =>
      have ht : a.isToken = false := by
        rw [hn]
        refine decide_eq_false fun e => ?_
        obtain ⟨t, h⟩ := fits_token hf e
        cases h
      simp only [Accessor.isToken, Bool.or_eq_false_iff, decide_eq_false_iff_not] at ht
      exact if_pos ⟨ht.1, ht.2, hf⟩

/-- What the tables of a kind have to fulfil. -/
def neatKind (k : Syntax.Kind) : Bool :=
  (accessors k).all Accessor.neat && (accessors k).zipIdx.all (fun (a, i) => a.slot = i) &&
  ((accessors k).map Accessor.name).Nodup &&
  (params k).map (·.name) = (mutators k).map (·.name) && ((params k).map (·.name)).Nodup &&
  (accessors k).length = (params k).length &&
  ((accessors k).zip (params k)).all (fun (a, p) => SameName a.name p.name && a.ty = p.ty && (a.how ≠ .list || p.optional = false)) &&
  (mutators k).zipIdx.all (fun (m, i) => m.slot = i) &&
  (mutators k).all (fun m => (accessors k).all fun a =>
    decide (SameName a.name m.name) == decide (a.slot = m.slot) &&
    (a.slot ≠ m.slot || (a.ty = m.ty && (a.how ≠ .list || m.optional = false))))

theorem neat (k : Syntax.Kind) : neatKind k = true := by
  have key : allKinds.all neatKind = true := by decide +kernel
  exact List.all_eq_true.1 key k (mem_allKinds k)

/-- **C83.** What is given to a function that makes a node, or to its builder, is what the accessor of that name returns; an
optional part that is not given is missing. -/
theorem C83_built (k : Syntax.Kind) (arg : Name → Option Slot) (ha : ∀ p ∈ params k, Suits p.optional p.ty (arg p.name)) :
    ∀ p ∈ params k, ∃ a ∈ accessors k, SameName a.name p.name ∧ a.get (build (params k) arg) = Part.of (arg p.name) := by
  intro p hp
  have hk := neat k
  simp only [neatKind, Bool.and_eq_true, decide_eq_true_eq] at hk
  obtain ⟨⟨⟨⟨⟨⟨⟨⟨h1, h2⟩, -⟩, -⟩, -⟩, h6⟩, h7⟩, -⟩, -⟩ := hk
  obtain ⟨i, hi, rfl⟩ := List.mem_iff_getElem.1 hp
  have hi' : i < (accessors k).length := by omega
  refine ⟨(accessors k)[i], List.getElem_mem hi', ?_⟩
  have hz := List.all_eq_true.1 h7 ((accessors k)[i], (params k)[i]) (by
    rw [List.mem_iff_getElem]
    exact ⟨i, by simp; omega, by simp⟩)
  simp only [Bool.and_eq_true, decide_eq_true_eq, Bool.or_eq_true, ne_eq] at hz
  have hs : (accessors k)[i].slot = i := by
    have := List.all_eq_true.1 h2 ((accessors k)[i], i) (by
      rw [List.mem_iff_getElem]
      exact ⟨i, by simpa using hi', by simp⟩)
    simpa using this
  refine ⟨hz.1.1, ?_⟩
  refine get_fits (opt := (params k)[i].optional) (List.all_eq_true.1 h1 _ (List.getElem_mem hi')) ?_ ?_ ?_
  · intro e
    rcases hz.2 with h | h
    · exact absurd e h
    · exact h
  · rw [hz.1.2]
    exact ha _ hp
  · rw [hs, build, List.getElem?_map, List.getElem?_eq_getElem hi]
    rfl

/-- **C83.** No two accessors of a node have the same name, nor two setters: what C83_built and C83_set say of a name, they say of
one part. -/
theorem C83_names (k : Syntax.Kind) : ((accessors k).map (·.name)).Nodup ∧ ((params k).map (·.name)).Nodup ∧
    (mutators k).map (·.name) = (params k).map (·.name) := by
  have hk := neat k
  simp only [neatKind, Bool.and_eq_true, decide_eq_true_eq] at hk
  exact ⟨hk.1.1.1.1.1.1.2, hk.1.1.1.1.2, hk.1.1.1.1.1.2.symm⟩

/-- **C83.** A node with a part replaced has this part, and the others as before. -/
theorem C83_set (k : Syntax.Kind) (m : Mutator) (hm : m ∈ mutators k) (element : Option Slot)
    (he : Suits m.optional m.ty element) (slots : List Slot) (hl : slots.length = (accessors k).length) :
    (m.set element slots).length = slots.length ∧ (∃ a ∈ accessors k, SameName a.name m.name) ∧
    ∀ a ∈ accessors k, a.get (m.set element slots) = if SameName a.name m.name then Part.of element else a.get slots := by
  have hk := neat k
  simp only [neatKind, Bool.and_eq_true, decide_eq_true_eq] at hk
  obtain ⟨⟨⟨⟨⟨⟨⟨⟨h1, h2⟩, -⟩, h4⟩, -⟩, h6⟩, h7⟩, h8⟩, h9⟩ := hk
  have h9 := List.all_eq_true.1 h9 m hm
  have slot : ∀ a ∈ accessors k, a.slot < slots.length := by
    intro a ha
    obtain ⟨i, hi, rfl⟩ := List.mem_iff_getElem.1 ha
    have := List.all_eq_true.1 h2 ((accessors k)[i], i) (by
      rw [List.mem_iff_getElem]
      exact ⟨i, by simpa using hi, by simp⟩)
    simp only [decide_eq_true_eq] at this
    omega
  refine ⟨by simp [Mutator.set], ?_, ?_⟩
  · obtain ⟨j, hj, rfl⟩ := List.mem_iff_getElem.1 hm
    have hs : (mutators k)[j].slot = j := by
      have := List.all_eq_true.1 h8 ((mutators k)[j], j) (by
        rw [List.mem_iff_getElem]
        exact ⟨j, by simpa using hj, by simp⟩)
      simpa using this
    have hlen : (mutators k).length = (params k).length := by
      have := congrArg List.length h4
      simpa using this.symm
    have hj' : j < (accessors k).length := by omega
    refine ⟨(accessors k)[j], List.getElem_mem hj', ?_⟩
    have := List.all_eq_true.1 h9 _ (List.getElem_mem hj')
    simp only [Bool.and_eq_true, beq_iff_eq] at this
    have hs' : (accessors k)[j].slot = j := by
      have := List.all_eq_true.1 h2 ((accessors k)[j], j) (by
        rw [List.mem_iff_getElem]
        exact ⟨j, by simpa using hj', by simp⟩)
      simpa using this
    exact (decide_eq_decide.1 this.1).2 (by rw [hs, hs'])
  · intro a ha
    have h10 := List.all_eq_true.1 h9 a ha
    simp only [Bool.and_eq_true, beq_iff_eq, Bool.or_eq_true, decide_eq_true_eq, ne_eq] at h10
    have hiff := decide_eq_decide.1 h10.1
    by_cases hs : a.slot = m.slot
    · rw [if_pos (hiff.2 hs)]
      rcases h10.2 with h | ⟨ht, hlist⟩
      · exact absurd hs h
      · refine get_fits (opt := m.optional) (List.all_eq_true.1 h1 _ ha) (fun e => ?_) (ht ▸ he) ?_
        · rcases hlist with h | h
          · exact absurd e h
          · exact h
        · rw [Mutator.set, hs, List.getElem?_set_self (hs ▸ slot a ha)]
    · rw [if_neg fun h => hs (hiff.1 h), Accessor.get, Accessor.get, Mutator.set, List.getElem?_set_ne (fun h => hs h.symm)]

/-! ## Lists -/

theorem interleave_all : ∀ (items separators : List Slot) (m : Nat),
    separators.length = items.length ∨ separators.length + 1 = items.length → ∀ j : Nat,
      (interleave (items.length + separators.length) (2 * m) items separators)[2 * j]? = items[j]? ∧
      (interleave (items.length + separators.length) (2 * m) items separators)[2 * j + 1]? = separators[j]?
  | [], ss, m, h, j => by
    have : ss = [] := by simpa using h
    subst this
    simp [interleave]
  | [x], [], m, h, j => by
    cases j with
    | zero => simp [interleave]
    | succ j => simp [interleave, Nat.mul_add]
  | x :: y :: xs, [], m, h, j => by simp at h
  | x :: xs, s :: ss, m, h, j => by
    have ih := interleave_all xs ss (m + 1) (by simpa using h)
    have e : (x :: xs).length + (s :: ss).length = (xs.length + ss.length) + 1 + 1 := by simp; omega
    rw [e, interleave, if_pos (by omega), interleave, if_neg (by omega)]
    simp only [List.head?_cons, Option.getD_some, List.tail_cons]
    rw [show 2 * m + 1 + 1 = 2 * (m + 1) by omega]
    cases j with
    | zero => simp
    | succ j =>
      rw [show 2 * (j + 1) = 2 * j + 1 + 1 by omega]
      simpa using ih j

theorem interleave_length : ∀ (n i : Nat) (items separators : List Slot), (interleave n i items separators).length = n
  | 0, _, _, _ => rfl
  | n + 1, i, items, separators => by
    rw [interleave]
    split <;> simp [interleave_length]

/-- **C83.** A list that is made of items and separators has all of them, items in the even and separators in the odd slots, if
and only if there are as many separators as items, or one less. -/
theorem C83_list (items separators : List Slot) :
    (∀ j : Nat, (makeList items separators)[2 * j]? = items[j]? ∧ (makeList items separators)[2 * j + 1]? = separators[j]?) ↔
      separators.length = items.length ∨ separators.length + 1 = items.length := by
  constructor
  · intro h
    have h1 := (h items.length).1
    have h2 := (h separators.length).2
    rw [List.getElem?_eq_none (Nat.le_refl _), List.getElem?_eq_none_iff, makeList, interleave_length] at h1
    rw [List.getElem?_eq_none (Nat.le_refl _), List.getElem?_eq_none_iff, makeList, interleave_length] at h2
    omega
  · exact fun h => interleave_all items separators 0 h

/-- **C83.** Without separators, the second item is lost: there is an empty slot instead, and no error. -/
theorem C83_list_lost (a b : Slot) : makeList [a, b] [] = [a, .empty] := rfl

/-! ## The grammar -/

/-- The tables of a kind are what is generated for the fields of its rule. -/
def generatedB (k : Syntax.Kind) : Bool :=
  match rAst.lookup (nameOf k) with
  | some (.node fs _) => accessors k = fs.zipIdx.map (fun (f, i) => f.accessor rAst i) &&
      mutators k = fs.zipIdx.map (fun (f, i) => f.mutator i) && params k = fs.map Field.param
  | _ => (accessors k).isEmpty && (mutators k).isEmpty && (params k).isEmpty

theorem generated_all (k : Syntax.Kind) : generatedB k = true := by
  have key : allKinds.all generatedB = true := by decide +kernel
  exact List.all_eq_true.1 key k (mem_allKinds k)

/-- **C83.** Accessors, mutators and functions that make nodes are what the generator writes for the fields of r.ungram. -/
theorem C83_generated : ∃ ast, makeAst rUngram = some ast ∧ ∀ k fs, ast.lookup (nameOf k) = some (.node fs false) →
    accessors k = fs.zipIdx.map (fun (f, i) => f.accessor ast i) ∧ mutators k = fs.zipIdx.map (fun (f, i) => f.mutator i) ∧
    params k = fs.map Field.param := by
  refine ⟨rAst, rAst_eq, fun k fs h => ?_⟩
  have := generated_all k
  simp only [generatedB, h, Bool.and_eq_true, decide_eq_true_eq] at this
  exact ⟨this.1.1, this.1.2, this.2⟩

/-- A slot with a token has a kind of tokens, one with a node a kind of nodes. -/
def Proper : Slot → Prop
  | .empty => False
  | .token t => isNodeKind t.kind = false
  | .node k _ => isNodeKind k = true

/-- What passes the test of a slot is of the type of its accessor. -/
def suitsB (a : Accessor) (p : Syntax.Kind → Bool) : Bool :=
  allKinds.all fun k => !p k || if a.isToken then !isNodeKind k else isNodeKind k && fits a.ty (.node k [])

/-- The same for all slots of a kind. -/
def suitKind (k : Syntax.Kind) : Bool :=
  match slotTests k with
  | some ps => (accessors k).all fun a => match ps[a.slot]? with
    | some p => suitsB a p
    | none => false
  | none => (accessors k).isEmpty

theorem suit_all (k : Syntax.Kind) : suitKind k = true := by
  have key : allKinds.all suitKind = true := by decide +kernel
  exact List.all_eq_true.1 key k (mem_allKinds k)

theorem get_suits {a : Accessor} {p : Syntax.Kind → Bool} {slots : List Slot} {s : Slot} (h : suitsB a p = true)
    (hs : slots[a.slot]? = some s) (hp : s.kind?.all p = true) (hr : s.isEmpty = false → Proper s) (he : s.isEmpty = false) :
    a.get slots = .there s := by
  rw [Accessor.get, hs]
  cases s with
  | empty => cases he
  | token t =>
    have h1 := List.all_eq_true.1 h t.kind (mem_allKinds t.kind)
    have h2 : p t.kind = true := by simpa [Slot.kind?] using hp
    have h3 : isNodeKind t.kind = false := hr rfl
    rw [h2, h3] at h1
    simp only
    by_cases ht : a.isToken = true
    · simp only [Accessor.isToken, Bool.or_eq_true, decide_eq_true_eq] at ht
      exact if_pos ht
    · rw [if_neg ht] at h1
      cases h1
  | node k ss =>
    have h1 := List.all_eq_true.1 h k (mem_allKinds k)
    have h2 : p k = true := by simpa [Slot.kind?] using hp
    have h3 : isNodeKind k = true := hr rfl
    rw [h2, h3] at h1
    simp only
    by_cases ht : a.isToken = true
    · rw [if_pos ht] at h1
      cases h1
    · rw [if_neg ht] at h1
      have h4 : fits a.ty (.node k []) = true := by simpa using h1
      simp only [Accessor.isToken, Bool.or_eq_true, decide_eq_true_eq, not_or] at ht
      exact if_pos ⟨ht.1, ht.2, h4⟩

/-- **C83.** Whatever the children are: in a node that did not become bogus, an accessor finds what is in its slot, with the type
that it promises; only an accessor of a list panics, when the list is missing. -/
theorem C83_typed (k : Syntax.Kind) (cs slots : List Slot) (hc : ∀ c ∈ cs, Proper c)
    (hm : Syntax.makeSyntax k cs = some (.node k slots)) (hb : k.toBogus ≠ k) (a : Accessor) (ha : a ∈ accessors k) :
    ∃ s, slots[a.slot]? = some s ∧
      (s.isEmpty = false → a.get slots = .there s ∧ s ∈ cs) ∧
      (s.isEmpty = true → a.get slots = if a.how = .list then .panic else .missing) := by
  have hce : ∀ c ∈ cs, c.isEmpty = false := by
    intro c h
    have := hc c h
    cases c with
    | empty => exact this.elim
    | token t => rfl
    | node k ss => rfl
  have hsu := suit_all k
  unfold suitKind at hsu
  cases hps : slotTests k with
  | none =>
    rw [hps] at hsu
    rw [List.isEmpty_iff.1 hsu] at ha
    cases ha
  | some ps =>
    rw [hps] at hsu
    have h1 := List.all_eq_true.1 hsu a ha
    cases hp : ps[a.slot]? with
    | none => simp only [hp] at h1; cases h1
    | some p =>
      simp only [hp] at h1
      have hd : Syntax.Distributed ps cs slots := by
        rcases Whole.C58_slots k ps hps cs hce with ⟨slots', h2, h3⟩ | ⟨h2, h3, -⟩
        · rw [hm] at h2
          cases h2
          exact h3
        · rw [hm] at h2
          injection h2 with h2
          injection h2 with h4 h5
          exact absurd h4.symm h3
      have hi : a.slot < slots.length := by
        rw [hd.2.1]
        exact (List.getElem?_eq_some_iff.1 hp).1
      refine ⟨slots[a.slot], List.getElem?_eq_getElem hi, fun he => ?_, fun he => ?_⟩
      · have hmem : slots[a.slot] ∈ cs := by
          rw [← hd.1, List.mem_filter]
          exact ⟨List.getElem_mem hi, by simp [he]⟩
        exact ⟨get_suits h1 (List.getElem?_eq_getElem hi) (hd.2.2 _ p _ hp (List.getElem?_eq_getElem hi))
          (fun _ => hc _ hmem) he, hmem⟩
      · rw [Accessor.get, List.getElem?_eq_getElem hi]
        cases hsl : slots[a.slot] with
        | empty => rfl
        | token t => rw [hsl] at he; cases he
        | node k ss => rw [hsl] at he; cases he

/-- The fields of a definition. -/
def fieldsOf : Name × Def → List Field
  | (_, .node fs _) => fs
  | _ => []

/-- No list is optional. -/
theorem no_optional_lists : ((rAst.map fieldsOf).all fun fs => fs.all fun f => match f with
    | .node _ ty true _ => (match rAst.lookup ty with | some (.list _ _) => false | _ => true)
    | _ => true) = true := by decide +kernel

theorem mem_of_lookup {n : Name} {d : Def} : ∀ {l : List (Name × Def)}, l.lookup n = some d → (n, d) ∈ l
  | [], h => by cases h
  | (m, e) :: l, h => by
    rw [List.lookup_cons] at h
    split at h
    · rename_i hm
      cases h
      rw [beq_iff_eq.1 hm]
      exact List.mem_cons_self
    · exact List.mem_cons_of_mem _ (mem_of_lookup h)

/-- **C83.** In a node whose children are as r.ungram describes them, no accessor panics, and one that is not of an optional
part finds it. -/
theorem C83_required (k : Syntax.Kind) (hk : isNodeKind k = true) (hb : k.toBogus ≠ k) (r : Rule Name) (hr : (nameOf k, r) ∈ rUngram)
    (cs : List Slot) (hc : ∀ c ∈ cs, Proper c) (hl : Lang rUngram r (cs.filterMap elem?)) :
    ∃ slots, Syntax.makeSyntax k cs = some (.node k slots) ∧ ∀ a ∈ accessors k, a.get slots ≠ .panic ∧
      (a.how ≠ .node → a.how ≠ .token → ∃ s ∈ cs, a.get slots = .there s) := by
  have hce : ∀ c ∈ cs, c.isEmpty = false := by
    intro c h
    have := hc c h
    cases c with
    | empty => exact this.elim
    | token t => rfl
    | node k ss => rfl
  obtain ⟨slots, h1, h2, h3⟩ := C82_grammar k hk r hr cs hce hl
  refine ⟨slots, h1, fun a ha => ?_⟩
  obtain ⟨s, h4, h5, h6⟩ := C83_typed k cs slots hc h1 hb a ha
  have key : a.how ≠ .node → a.how ≠ .token → s.isEmpty = false := by
    intro hn ht
    have hg := generated_all k
    obtain ⟨d, hd, hlook⟩ := (makeAst_lookup rAst_eq).1 _ _ r_nodup hr (by
      have key : (allKinds.all fun k => decide (nameOf k ≠ syntaxElement)) = true := by decide +kernel
      exact of_decide_eq_true (List.all_eq_true.1 key k (mem_allKinds k)))
    simp only [generatedB, hlook] at hg
    cases d with
    | union vs => simp at hg; rw [hg.1.1] at ha; cases ha
    | bogus => simp at hg; rw [hg.1.1] at ha; cases ha
    | list e o => simp at hg; rw [hg.1.1] at ha; cases ha
    | node fs dyn =>
      simp only [Bool.and_eq_true, decide_eq_true_eq] at hg
      rw [hg.1.1, List.mem_map] at ha
      obtain ⟨⟨f, i⟩, hfi, rfl⟩ := ha
      have hfi' : fs[i]? = some f := List.mem_zipIdx_iff_getElem?.1 hfi
      have hdyn : dyn = false := by
        cases dyn with
        | false => rfl
        | true =>
          have := List.all_eq_true.1 r_fine _ hr
          simp only [hd] at this
          cases this
      subst hdyn
      have hopt : f.optional = false := by
        cases f with
        | token n ks o u =>
          cases o with
          | false => rfl
          | true => exact absurd rfl ht
        | node n ty o u =>
          cases o with
          | false => rfl
          | true =>
            have hlist := List.all_eq_true.1 (List.all_eq_true.1 no_optional_lists _ (List.mem_map.2 ⟨_, mem_of_lookup hlook, rfl⟩)) _
              (List.mem_of_getElem? hfi')
            exfalso
            apply hn
            simp only [Field.accessor]
            cases hty : rAst.lookup ty with
            | none => rfl
            | some d => cases d <;> simp_all
      obtain ⟨c, e, h7, h8, -⟩ := h3 fs hd i f hfi' hopt
      have h4' : slots[i]? = some s := h4
      rw [h7] at h4'
      injection h4' with h4'
      subst h4'
      cases c with
      | empty => cases h8
      | token t => rfl
      | node k ss => rfl
  cases he : s.isEmpty with
  | false =>
    obtain ⟨h7, h8⟩ := h5 he
    exact ⟨by rw [h7]; exact fun h => (by cases h), fun _ _ => ⟨s, h8, h7⟩⟩
  | true =>
    refine ⟨?_, fun hn ht => ?_⟩
    · rw [h6 he]
      by_cases hlist : a.how = .list
      · rw [key (by rw [hlist]; decide) (by rw [hlist]; decide)] at he
        cases he
      · rw [if_neg hlist]
        exact fun h => (by cases h)
    · rw [key hn ht] at he
      cases he

/-! ## Examples -/

/-- The arguments of `r_else_clause(else_token, alternative)`. -/
def exampleArg (t : Syntax.Token) (n : Name) : Option Slot :=
  if n = "else_token".toList then some (.token t)
  else if n = "alternative".toList then some (.node .rIdentifier [])
  else none

/-- Both accessors find their part. -/
example (t : Syntax.Token) : (Accessor.mk "alternative".toList 1 .requiredNode "AnyRExpression".toList).get
    (build (params .rElseClause) (exampleArg t)) = .there (.node .rIdentifier []) := by
  have hs : ∀ p ∈ params .rElseClause, Suits p.optional p.ty (exampleArg t p.name) := by
    intro p hp
    simp only [params, List.mem_cons, List.not_mem_nil, or_false] at hp
    rcases hp with rfl | rfl <;> rfl
  obtain ⟨a, ha, hn, hg⟩ := C83_built .rElseClause (exampleArg t) hs ⟨"alternative".toList, false, "AnyRExpression".toList⟩
    (by simp [params])
  simp only [accessors, List.mem_cons, List.not_mem_nil, or_false] at ha
  rcases ha with rfl | rfl
  · exact absurd hn (by decide)
  · exact hg

/-- `with_alternative` replaces the part after `else` and leaves the token alone. -/
example (t : Syntax.Token) (x : List Slot) :
    let m : Mutator := ⟨"alternative".toList, 1, false, "AnyRExpression".toList⟩
    let slots := m.set (some (.node .rCall x)) [.token t, .node .rIdentifier []]
    (Accessor.mk "alternative".toList 1 .requiredNode "AnyRExpression".toList).get slots = .there (.node .rCall x) ∧
    (Accessor.mk "else_token".toList 0 .requiredToken "SyntaxToken".toList).get slots = .there (.token t) := by
  obtain ⟨-, -, h⟩ := C83_set .rElseClause ⟨"alternative".toList, 1, false, "AnyRExpression".toList⟩ (by simp [mutators])
    (some (.node .rCall x)) rfl [.token t, .node .rIdentifier []] rfl
  refine ⟨(h _ (by simp [accessors])).trans (if_pos (by decide)), (h _ (by simp [accessors])).trans ?_⟩
  exact (if_neg (by decide)).trans rfl

/-- Three items and two separators. -/
example (a b c s t : Slot) : makeList [a, b, c] [s, t] = [a, s, b, t, c] ∧
    ([s, t].length = [a, b, c].length ∨ [s, t].length + 1 = [a, b, c].length) := ⟨rfl, .inr rfl⟩

/-- `else x`: both accessors find something. -/
example (t : Syntax.Token) (ht : t.kind = .elseKw) (xs : List Slot) :
    ∃ slots, Syntax.makeSyntax .rElseClause [.token t, .node .rIdentifier xs] = some (.node .rElseClause slots) ∧
      ∀ a ∈ accessors .rElseClause, a.get slots ≠ .panic := by
  have hx : Belongs rUngram "AnyRExpression".toList (.node "RIdentifier".toList) := (C82_classes .rIdentifier).1.1 rfl
  obtain ⟨slots, h1, h2⟩ := C83_required .rElseClause rfl (by decide) (.seq (rules [.token "else".toList,
      .labeled "alternative".toList (.node "AnyRExpression".toList)])) (by simp [rUngram, nameOf, elemOf, rules])
    [.token t, .node .rIdentifier xs] (by
      intro c hc
      simp only [List.mem_cons, List.not_mem_nil, or_false] at hc
      rcases hc with rfl | rfl
      · simp only [Proper, ht]; rfl
      · rfl) (by
      simp only [List.filterMap_cons, List.filterMap_nil, elem?, Slot.kind?, ht, Option.map_some, elemOf, rules]
      exact .seq (.cons (cs := [_]) (.token (by decide)) (.cons (cs := [_]) (.labeled (.node hx)) .nil)))
  exact ⟨slots, h1, fun a ha => (h2 a ha).1⟩

end Verif.Ungrammar
