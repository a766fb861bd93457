import Verif.Lemmas.Format

/-!
# Reading printed argument and parameter lists
-/

namespace Verif.Format
open Verif.Syntax

variable {st : Bool}

/-- Comments of printer instructions. -/
def El.isComment : El → Bool
  | .comment _ | .suffix .. => true
  | _ => false

/-- Where soft line breaks are removed there are no comments. -/
def Quiet (st ns : Bool) (x : List El) : Prop :=
  st = true → ns = true → ∀ e ∈ x, e.isComment = false

theorem Quiet.left {ns : Bool} {x y : List El} (h : Quiet st ns (x ++ y)) : Quiet st ns x :=
  fun hw hn e he => h hw hn e (List.mem_append_left _ he)
theorem Quiet.right {ns : Bool} {x y : List El} (h : Quiet st ns (x ++ y)) : Quiet st ns y :=
  fun hw hn e he => h hw hn e (List.mem_append_right _ he)
theorem quiet_false (x : List El) : Quiet st false x := fun _ h => by cases h

/-! ## Blocks -/

theorem lays_line {ns : Bool} {m : Mode} {i : Nat} {l : Line} {x : List El}
    (h : Lays ns m i (.line l) x) : Reads st Nc [] Nc x := by
  have h : x = layLine ns m i l := h
  subst h
  have hn : ∀ e, Reads st Nc [] Nc [El.nl e i] := fun e =>
    (reads_nl e i).imp (fun _ => Nc.an) fun _ => Fr.nc
  cases l <;> simp only [layLine]
  · split
    · exact reads_nil _
    · exact hn _
  · split
    · exact reads_space _
    · exact hn _
  · exact hn _
  · exact hn _

theorem lays_hard {ns : Bool} {m : Mode} {i : Nat} {x : List El}
    (h : Lays ns m i (.line .hard) x) : Reads st An [] Fr x := by
  cases h; exact reads_nl _ _

theorem lays_empty {ns : Bool} {m : Mode} {i : Nat} {x : List El}
    (h : Lays ns m i (.line .empty) x) : Reads st An [] Fr x := by
  cases h; exact reads_nl _ _

theorem lays_softBlock {ns : Bool} {m : Mode} {i : Nat} {d : Doc} {x : List El}
    (h : Lays ns m i (softBlock d) x) :
    ∃ a b c, x = a ++ b ++ c ∧ Lays ns m (i + 1) d b ∧ Reads st Nc [] Nc a ∧ Reads st Nc [] Nc c ∧
      (m = .flat → a = [] ∧ c = []) := by
  obtain ⟨y, c, rfl, ⟨a, b, rfl, ha, hb⟩, hc⟩ := h
  refine ⟨a, b, c, rfl, hb, lays_line ha, lays_line hc, ?_⟩
  rintro rfl
  have ha : a = layLine ns .flat (i + 1) .soft := ha
  have hc : c = layLine ns .flat i .soft := hc
  subst ha; subst hc
  simp [layLine]

theorem lays_hardBlock {ns : Bool} {m : Mode} {i : Nat} {d : Doc} {x : List El}
    (h : Lays ns m i (hardBlock d) x) :
    ∃ a b c, x = a ++ b ++ c ∧ Lays ns m (i + 1) d b ∧ Reads st An [] Fr a ∧ Reads st An [] Fr c := by
  obtain ⟨y, c, rfl, ⟨a, b, rfl, ha, hb⟩, hc⟩ := h
  exact ⟨a, b, c, rfl, hb, lays_hard ha, lays_hard hc⟩

/-- Something of region-independent shape in a soft block. -/
theorem reads_softBlock {ns : Bool} {m : Mode} {i : Nat} {d : Doc} {x : List El}
    (h : Lays ns m i (softBlock d) x) {p : List (Pos × Tok) → Prop} (hq : Quiet st ns x)
    (hd : ∀ b, Quiet st ns b → Lays ns m (i + 1) d b → ∃ ps, p ps ∧ Reads st Nc ps Nc b) :
    ∃ ps, p ps ∧ Reads st Nc ps Nc x := by
  obtain ⟨a, b, c, rfl, hb, ha, hc, -⟩ := lays_softBlock h
  obtain ⟨ps, hp, hr⟩ := hd b hq.left.right hb
  exact ⟨ps, hp, (ha.pre hr).post hc⟩

theorem lays_danglingSoft' {ns : Bool} {m : Mode} {i : Nat} {cs : List Comment} {x : List El}
    (hq : Quiet st ns x) (h : Lays ns m i (danglingSoft cs) x) :
    Reads st Nc [] Nc x ∧ (cs.isEmpty = true → x = []) := by
  refine ⟨?_, ?_⟩
  · cases ns with
    | false => exact lays_danglingSoft h
    | true =>
      unfold danglingSoft at h
      split at h
      · cases h; exact reads_nil _
      · rename_i hc
        obtain ⟨m', -, a, y, rfl, ⟨b, z, rfl, hb, hz⟩, hy⟩ := h
        have ht : printedToks ((b ++ z) ++ y) = [] := by
          cases hb
          cases hy
          rw [printedToks_append, printedToks_append, (lays_danglingComments (st := false) hz).2]
          cases m' <;> rfl
        refine ⟨fun hw => ?_, ht⟩
        exfalso
        have hz' : Quiet st true z := hq.left.right
        have : ∃ t, El.comment t ∈ z := by
          match cs, hz with
          | [], hz => exact absurd rfl hc
          | [c], hz => cases hz; exact ⟨c.text, by simp⟩
          | c :: d :: cs, hz =>
            obtain ⟨p, q, rfl, hp, -⟩ := hz
            cases hp
            exact ⟨c.text, by simp⟩
        obtain ⟨t, ht⟩ := this
        have := hz' hw rfl _ ht
        cases this
  · intro hc
    unfold danglingSoft at h
    rw [if_pos hc] at h
    exact h

/-! ## Lists of formatted entries -/

/-- Entries are rewritten one by one. -/
def RewList (o : Opts) (vcx : Cx) (dir : Bool) : List ItemDoc → List Arg → Prop
  | [], [] => True
  | d :: ds, y :: ys => RewArg o vcx dir d.arg y ∧ RewList o vcx dir ds ys
  | _, _ => False

/-- The separator. -/
def sepShape : Option Token → List (Pos × Tok)
  | some s => [(.free, outTok s)]
  | none => []

/-- Tokens of the entries with separators. -/
def lshape : List ItemDoc → List Arg → List (Pos × Tok)
  | d :: ds, y :: ys => shapeArg y ++ sepShape d.sep ++ lshape ds ys
  | _, _ => []

/-- One document of an entry is read as it should. -/
def DocOk (st : Bool) (o : Opts) (vcx : Cx) (dir : Bool) (x : Arg) (d : Doc) : Prop :=
  ∀ ns m i els, Quiet st ns els → Lays ns m i d els →
    ∃ y, RewArg o vcx dir x y ∧ Reads st Nc (shapeArg y) Nc els

/-- All documents of an entry are read as they should. -/
structure ItemOk (st : Bool) (o : Opts) (vcx : Cx) (dir : Bool) (d : ItemDoc) : Prop where
  doc : DocOk st o vcx dir d.arg d.doc
  grouped : DocOk st o vcx dir d.arg d.grouped
  fields : DocOk st o vcx dir d.arg d.fields

/-- The text `x` is read as a rewriting of the entries `ds`. -/
def LR (st : Bool) (o : Opts) (vcx : Cx) (dir : Bool) (ds : List ItemDoc) (x : List El) : Prop :=
  ∃ ys, RewList o vcx dir ds ys ∧ Reads st Nc (lshape ds ys) Nc x

variable {o : Opts} {vcx : Cx} {dir : Bool}

theorem LR.nil : LR st o vcx dir [] [] := ⟨[], trivial, reads_nil _⟩

theorem LR.append {ds es : List ItemDoc} {x y : List El} (h : LR st o vcx dir ds x)
    (h' : LR st o vcx dir es y) : LR st o vcx dir (ds ++ es) (x ++ y) := by
  obtain ⟨ys, hys, hx⟩ := h
  obtain ⟨zs, hzs, hy⟩ := h'
  have key : ∀ (ds : List ItemDoc) (ys : List Arg), RewList o vcx dir ds ys →
      RewList o vcx dir (ds ++ es) (ys ++ zs) ∧ lshape (ds ++ es) (ys ++ zs) =
        lshape ds ys ++ lshape es zs := by
    intro ds
    induction ds with
    | nil =>
      intro ys h
      cases ys with
      | nil => exact ⟨hzs, rfl⟩
      | cons _ _ => cases h
    | cons d ds ih =>
      intro ys h
      cases ys with
      | nil => cases h
      | cons y ys =>
        obtain ⟨h1, h2⟩ := ih ys h.2
        exact ⟨⟨h.1, h1⟩, by simp only [List.cons_append, lshape, h2, List.append_assoc]⟩
  obtain ⟨h1, h2⟩ := key ds ys hys
  exact ⟨ys ++ zs, h1, by rw [h2]; exact hx.append hy⟩

theorem LR.pre {ds : List ItemDoc} {x y : List El} (hx : Reads st Nc [] Nc x)
    (h : LR st o vcx dir ds y) : LR st o vcx dir ds (x ++ y) :=
  let ⟨ys, hys, hy⟩ := h; ⟨ys, hys, hx.pre hy⟩

theorem LR.post {ds : List ItemDoc} {x y : List El} (h : LR st o vcx dir ds x)
    (hy : Reads st Nc [] Nc y) : LR st o vcx dir ds (x ++ y) :=
  let ⟨ys, hys, hx⟩ := h; ⟨ys, hys, hx.post hy⟩

theorem LR.cons {d : ItemDoc} {ds : List ItemDoc} {x y : List El} (h : LR st o vcx dir [d] x)
    (h' : LR st o vcx dir ds y) : LR st o vcx dir (d :: ds) (x ++ y) := h.append h'

variable {ns : Bool} {m : Mode} {i : Nat}

theorem lays_sep {d : ItemDoc} {x : List El} (h : Lays ns m i d.sepDoc x) :
    Reads st Nc (sepShape d.sep) Nc x := by
  unfold ItemDoc.sepDoc at h
  cases hs : d.sep with
  | none => rw [hs] at h; cases h; exact reads_nil _
  | some s => rw [hs] at h; cases h; exact (reads_tok _).imp (fun _ h => h) fun _ => In.nc

/-- An entry in front of its separator. -/
theorem LR.single {d : ItemDoc} {y : Arg} {x z : List El} (hy : RewArg o vcx dir d.arg y)
    (hx : Reads st Nc (shapeArg y) Nc x) (hz : Reads st Nc (sepShape d.sep) Nc z) :
    LR st o vcx dir [d] (x ++ z) :=
  ⟨[y], ⟨hy, trivial⟩, by
    show Reads st Nc (shapeArg y ++ sepShape d.sep ++ []) Nc (x ++ z)
    rw [List.append_nil]; exact hx.append hz⟩

theorem lays_entry {d : ItemDoc} {e : Doc} (hd : DocOk st o vcx dir d.arg e) {x : List El}
    (hq : Quiet st ns x) (h : Lays ns m i (e ⊹ d.sepDoc) x) : LR st o vcx dir [d] x := by
  obtain ⟨a, b, rfl, ha, hb⟩ := h
  obtain ⟨y, hy, hr⟩ := hd ns m i a hq.left ha
  exact .single hy hr (lays_sep hb)

theorem lays_full {d : ItemDoc} (hd : ItemOk st o vcx dir d) {x : List El}
    (hq : Quiet st ns x) (h : Lays ns m i d.full x) : LR st o vcx dir [d] x := lays_entry hd.doc hq h

theorem lays_holes {ds : List ItemDoc} (hd : ∀ d ∈ ds, ItemOk st o vcx dir d) {x : List El}
    (hq : Quiet st ns x) (h : Lays ns m i (catAll (ds.map ItemDoc.full)) x) : LR st o vcx dir ds x := by
  induction ds generalizing x with
  | nil => cases h; exact .nil
  | cons d ds ih =>
    obtain ⟨a, b, rfl, ha, hb⟩ := h
    exact (lays_full (hd d (by simp)) hq.left ha).cons
      (ih (fun e he => hd e (by simp [he])) hq.right hb)

theorem lays_argsTail {ds : List ItemDoc} (hd : ∀ d ∈ ds, ItemOk st o vcx dir d) {x : List El}
    (hq : Quiet st ns x) (h : Lays ns m i (argsTail ds) x) : LR st o vcx dir ds x := by
  induction ds generalizing x with
  | nil => cases h; exact .nil
  | cons d ds ih =>
    obtain ⟨a, b, rfl, ha, c, e, rfl, hc, he⟩ := h
    exact .pre (lays_line ha) ((lays_full (hd d (by simp)) hq.right.left hc).cons
      (ih (fun e he => hd e (by simp [he])) hq.right.right he))

theorem lays_argsJoin {ds : List ItemDoc} (hd : ∀ d ∈ ds, ItemOk st o vcx dir d) {x : List El}
    (hq : Quiet st ns x) (h : Lays ns m i (argsJoin ds) x) : LR st o vcx dir ds x := by
  cases ds with
  | nil => cases h; exact .nil
  | cons d ds =>
    obtain ⟨a, b, rfl, ha, hb⟩ := h
    exact (lays_full (hd d (by simp)) hq.left ha).cons
      (lays_argsTail (fun e he => hd e (by simp [he])) hq.right hb)

theorem lays_paramsTail {ds : List ItemDoc} (hd : ∀ d ∈ ds, ItemOk st o vcx dir d) {x : List El}
    (hq : Quiet st ns x) (h : Lays ns m i (paramsTail ds) x) : LR st o vcx dir ds x := by
  induction ds generalizing x with
  | nil => cases h; exact .nil
  | cons d ds ih =>
    obtain ⟨a, b, rfl, ha, c, e, rfl, hc, he⟩ := h
    exact .pre (lays_line ha) ((lays_full (hd d (by simp)) hq.right.left hc).cons
      (ih (fun e he => hd e (by simp [he])) hq.right.right he))

theorem lays_paramsJoin {ds : List ItemDoc} (hd : ∀ d ∈ ds, ItemOk st o vcx dir d) {x : List El}
    (hq : Quiet st ns x) (h : Lays ns m i (paramsJoin ds) x) : LR st o vcx dir ds x := by
  cases ds with
  | nil => cases h; exact .nil
  | cons d ds =>
    obtain ⟨a, b, rfl, ha, hb⟩ := h
    exact (lays_full (hd d (by simp)) hq.left ha).cons
      (lays_paramsTail (fun e he => hd e (by simp [he])) hq.right hb)

theorem lays_groupedJoin {ex single : Bool} {ds : List ItemDoc}
    (hd : ∀ d ∈ ds, ItemOk st o vcx dir d) {x : List El} (hq : Quiet st ns x)
    (h : Lays ns m i (groupedJoin ex single ds) x) : LR st o vcx dir ds x := by
  match ds, h with
  | [], h => cases h; exact .nil
  | [d], h =>
    have hd := hd d (by simp)
    have h : ∃ m', Lays ns m' i ((if single then d.doc else d.grouped) ⊹ d.sepDoc) x := by
      simp only [groupedJoin] at h
      cases ex with
      | true => obtain ⟨m', -, h⟩ := h; exact ⟨m', h⟩
      | false => exact ⟨m, h⟩
    obtain ⟨m', h⟩ := h
    refine lays_entry ?_ hq h
    cases single
    · exact hd.grouped
    · exact hd.doc
  | d :: e :: ds, h =>
    obtain ⟨a, b, rfl, ha, c, z, rfl, hc, hz⟩ := h
    exact (lays_full (hd d (by simp)) hq.left ha).cons (.pre (lays_line hc)
      (lays_groupedJoin (fun e he => hd e (by simp at he ⊢; exact .inr he)) hq.right.right hz))

theorem lays_testJoin {ds : List ItemDoc} (hd : ∀ d ∈ ds, ItemOk st o vcx dir d) {x : List El}
    (hq : Quiet st ns x) (h : Lays ns m i (testJoin ds) x) : LR st o vcx dir ds x := by
  match ds, h with
  | [], h => cases h; exact .nil
  | [d], h => exact lays_full (hd d (by simp)) hq h
  | d :: e :: ds, h =>
    obtain ⟨a, b, rfl, ha, c, z, rfl, hc, hz⟩ := h
    cases hc
    exact (lays_full (hd d (by simp)) hq.left ha).cons (.pre (reads_space _)
      (lays_testJoin (fun e he => hd e (by simp at he ⊢; exact .inr he)) hq.right.right hz))

theorem lays_maybeSpace {b : Bool} {x : List El} (h : Lays ns m i (maybeSpace b) x)
    (P : RState → Prop) : Reads st P [] P x := by
  cases b <;> cases h
  · exact reads_nil _
  · exact reads_space _

/-- Text read as all entries between two delimiters. -/
def Between (st : Bool) (o : Opts) (vcx : Cx) (dir : Bool) (l : Token) (ds : List ItemDoc) (r : Token)
    (x : List El) : Prop :=
  ∃ y, x = .tok (outTok l) :: (y ++ [.tok (outTok r)]) ∧ LR st o vcx dir ds y

theorem lays_brokenOut {ex : Bool} {l r : Token} {holes args : List ItemDoc}
    (hd : ∀ d ∈ holes ++ args, ItemOk st o vcx dir d) {x : List El} (hq : Quiet st ns x)
    (h : Lays ns m i (brokenOut ex l holes args r) x) :
    Between st o vcx dir l (holes ++ args) r x := by
  obtain ⟨m', -, a, b, rfl, ha, c, e, rfl, hc, f, g, rfl, hf, p, q, rfl, hp, hqq⟩ := h
  cases ha
  cases hqq
  have h1 := lays_holes (fun d hh => hd d (List.mem_append_left _ hh)) hq.right.left hc
  have h2 : LR st o vcx dir args p := by
    have hp' := hq.right.right.right.left
    have ha : ∀ d ∈ args, ItemOk st o vcx dir d := fun d hh => hd d (List.mem_append_right _ hh)
    split at hp
    · rename_i he
      have : args = [] := by simpa using he
      subst this
      cases hp; exact .nil
    · split at hp
      · exact lays_argsJoin ha hp' hp
      · obtain ⟨a, b, c, rfl, hb, ha', hc, -⟩ := lays_softBlock hp
        exact ((lays_argsJoin ha hp'.left.right hb).pre ha').post hc
  refine ⟨c ++ (f ++ p), by simp, h1.append (.pre (lays_maybeSpace hf _) h2)⟩

theorem lays_groupedArgs {l r : Token} {holes args : List ItemDoc}
    (hd : ∀ d ∈ holes ++ args, ItemOk st o vcx dir d) {x : List El} (hq : Quiet st ns x)
    (h : Lays ns m i (groupedArgs l holes args r) x) :
    Between st o vcx dir l (holes ++ args) r x := by
  have key : ∀ ex, Lays ns m i (.group false ((tokDoc l ⊹ catAll (holes.map ItemDoc.full) ⊹
      maybeSpace (!holes.isEmpty && !args.isEmpty)) ⊹
        groupedJoin ex (args.length == 1) args ⊹ tokDoc r)) x →
      Between st o vcx dir l (holes ++ args) r x := by
    rintro ex ⟨m', -, h⟩
    obtain ⟨u, v, rfl, ⟨a, b, rfl, ha, c, f, rfl, hc, hf⟩, p, q, rfl, hp, hqq⟩ := h
    cases ha
    cases hqq
    have h1 := lays_holes (fun d hh => hd d (List.mem_append_left _ hh)) hq.left.right.left hc
    have h2 := lays_groupedJoin (fun d hh => hd d (List.mem_append_right _ hh))
      hq.right.left hp
    exact ⟨c ++ (f ++ p), by simp, h1.append (.pre (lays_maybeSpace hf _) h2)⟩
  rcases h with h | h | h
  · exact key false h
  · exact key true h
  · exact lays_brokenOut hd hq h

theorem lays_argsDoc {k : CallKind} {aa : Ann} {l r : Token} {items : Items} {ds : List ItemDoc}
    (hd : ∀ d ∈ ds, ItemOk st o vcx dir d) {x : List El} (hq : Quiet st ns x)
    (h : Lays ns m i (argsDoc o k aa l items ds r) x) : Between st o vcx dir l ds r x := by
  unfold argsDoc at h
  split at h
  · rename_i he
    have : ds = [] := by simpa using he
    subst this
    obtain ⟨a, b, rfl, ha, c, e, rfl, hc, he⟩ := h
    cases ha
    cases he
    refine ⟨c, by simp, [], trivial, ?_⟩
    exact (lays_danglingSoft' hq.right.left hc).1
  · split at h
    · obtain ⟨a, b, rfl, ha, c, e, rfl, hc, he⟩ := h
      cases ha
      cases he
      exact ⟨c, by simp, lays_testJoin hd hq.right.left hc⟩
    · have hsplit : ds.takeWhile ItemDoc.isHole ++ ds.dropWhile ItemDoc.isHole = ds :=
        List.takeWhile_append_dropWhile
      have hd' : ∀ d ∈ ds.takeWhile ItemDoc.isHole ++ ds.dropWhile ItemDoc.isHole,
          ItemOk st o vcx dir d := by rw [hsplit]; exact hd
      have hres : Between st o vcx dir l
          (ds.takeWhile ItemDoc.isHole ++ ds.dropWhile ItemDoc.isHole) r x := by
        simp only at h
        split at h
        · exact lays_brokenOut hd' hq h
        · split at h
          · exact lays_brokenOut hd' hq h
          · split at h
            · exact lays_groupedArgs hd' hq h
            · exact lays_brokenOut hd' hq h
      rwa [hsplit] at hres

/-! ## Tables -/

theorem inlineSuffixes_of_quiet {x : List El} (h : ∀ e ∈ x, e.isComment = false) :
    inlineSuffixes x = x := by
  unfold inlineSuffixes
  rw [List.filter_eq_self.mpr, List.flatMap_eq_nil_iff.mpr, List.append_nil]
  · intro e he
    have := h e he
    cases e <;> simp_all [El.isComment]
  · intro e he
    have := h e he
    cases e <;> simp_all [El.isComment]

theorem printedToks_inlineSuffixes (x : List El) :
    printedToks (inlineSuffixes x) = printedToks x := by
  have h1 : ∀ (f : El → List El) (_ : ∀ e, printedToks (f e) = []) (x : List El),
      printedToks (x.flatMap f) = [] := by
    intro f hf x
    induction x with
    | nil => rfl
    | cons e x ih => rw [List.flatMap_cons, printedToks_append, ih, hf, List.nil_append]
  have h2 : ∀ (f : El → Bool) (_ : ∀ t, f (.tok t) = true) (x : List El),
      printedToks (x.filter f) = printedToks x := by
    intro f hf x
    induction x with
    | nil => rfl
    | cons e x ih =>
      rw [List.filter_cons]
      split
      · cases e <;> simp only [printedToks, ih]
      · rename_i hn
        cases e
        case tok t => exact absurd (hf t) hn
        all_goals exact ih
  unfold inlineSuffixes
  rw [printedToks_append, h1 _ (fun e => by cases e <;> rfl), h2 _ (fun _ => rfl), List.append_nil]

/-- No layout of the document contains comments. -/
def Doc.Silent (d : Doc) : Prop :=
  ∀ ns m i x, Lays ns m i d x → ∀ e ∈ x, e.isComment = false

theorem lays_cell {d : ItemDoc} (hd : ItemOk st o vcx dir d)
    (hs : st = true → d.arg.isNumeric = true ∨ d.fields.Silent) {x : List El} (hq : Quiet st ns x)
    (h : Lays ns m i (cellDoc d) x) : LR st o vcx dir [d] x := by
  obtain ⟨a, b, rfl, ⟨n, rfl⟩, c, e, rfl, hc, f, g, rfl, hf, p, q, rfl, hp, hqq⟩ := h
  cases hqq
  have hc' : ∃ y, RewArg o vcx dir d.arg y ∧ Reads st Nc (shapeArg y) Nc c := by
    split at hc
    · exact hd.doc ns m i c hq.right.left hc
    · rename_i hn
      obtain ⟨u, v, rfl, hu, c, z, rfl, ⟨y, m', hy, -, rfl⟩, hz⟩ := hc
      have hsy : st = true → ∀ e ∈ y, e.isComment = false :=
        fun hw => (hs hw).resolve_left hn _ _ _ _ hy
      obtain ⟨y', hr, hy'⟩ := hd.fields true m' 0 y (fun hw _ => hsy hw) hy
      refine ⟨y', hr, ?_⟩
      have hi : Reads st Nc (shapeArg y') Nc (inlineSuffixes y) := by
        refine ⟨fun hw => ?_, by rw [printedToks_inlineSuffixes]; exact hy'.2⟩
        rw [inlineSuffixes_of_quiet (hsy hw)]
        exact hy'.1 hw
      exact (lays_leading hu).1.pre (hi.post (lays_trailing hz _))
  obtain ⟨y, hy, hr⟩ := hc'
  have hf' : Reads st Nc [] Nc f := by
    obtain ⟨n, rfl⟩ := hf; exact reads_pad _ _
  have hp' : Reads st Nc (sepShape d.sep) Nc p := by
    cases hs : d.sep with
    | none => rw [hs] at hp; cases hp; exact reads_nil _
    | some s =>
      rw [hs] at hp
      obtain ⟨u, v, rfl, hu, hv⟩ := hp
      cases hu
      cases hv
      exact (reads_space _).pre ((reads_tok _).imp (fun _ h => h) fun _ => In.nc)
  have := LR.single hy hr (hf'.pre (hp'.post (reads_space _)))
  exact .pre (reads_pad _ _) this

theorem lays_tableRows {first : Bool} {ds : List ItemDoc} (hd : ∀ d ∈ ds, ItemOk st o vcx dir d)
    (hs : st = true → ∀ d ∈ ds, d.arg.isNumeric = true ∨ d.fields.Silent) {x : List El} (hq : Quiet st ns x)
    (h : Lays ns m i (tableRows first ds) x) : LR st o vcx dir ds x := by
  induction ds generalizing x first with
  | nil => cases h; exact .nil
  | cons d ds ih =>
    obtain ⟨a, b, rfl, ha, c, e, rfl, hc, he⟩ := h
    have ha' : Reads st Nc [] Nc a := by
      split at ha
      · exact lays_line ha
      · cases ha; exact reads_nil _
    exact .pre ha' ((lays_cell (hd d (by simp)) (fun hw => hs hw d (by simp)) hq.right.left hc).cons
      (ih (fun e he => hd e (by simp [he])) (fun hw e he => hs hw e (by simp [he])) hq.right.right he))

theorem lays_remaining {ds : List ItemDoc} (hd : ∀ d ∈ ds, ItemOk st o vcx dir d) {x : List El}
    (hq : Quiet st ns x) (h : Lays ns m i (remainingDoc ds) x) : LR st o vcx dir ds x := by
  cases ds with
  | nil => cases h; exact .nil
  | cons d ds =>
    obtain ⟨a, b, rfl, ha, hb⟩ := h
    exact .pre (lays_line ha) (lays_argsTail hd hq.right hb)

/-- A table, or the source text. -/
theorem lays_tableDoc {aa : Ann} {l r : Token} {items : Items} {ds : List ItemDoc}
    (hd : ∀ d ∈ ds, ItemOk st o vcx dir d)
    (hs : st = true → ∀ d ∈ ds.takeWhile (fun x => !x.arg.isNamed),
      d.arg.isNumeric = true ∨ d.fields.Silent) {x : List El} (hq : Quiet st ns x)
    (h : Lays ns m i (tableDoc o aa l items ds r) x) :
    Between st o vcx dir l ds r x ∨
      Lays ns m i (verbatimDoc aa (l :: (items.tokens ++ [r]))) x := by
  unfold tableDoc at h
  split at h
  · exact .inl (lays_argsDoc hd hq h)
  · rcases h with h | h
    · left
      obtain ⟨m', -, a, b, rfl, ha, c, e, rfl, hc, he⟩ := h
      cases ha
      cases he
      obtain ⟨u, v, w, rfl, hv, hu, hw, -⟩ := lays_softBlock hc
      have hqv := hq.right.left.left.right
      obtain ⟨p, q, rfl, hp, hqq⟩ := hv
      have hsplit : ds.takeWhile (fun x => !x.arg.isNamed) ++
          ds.dropWhile (fun x => !x.arg.isNamed) = ds := List.takeWhile_append_dropWhile
      have h1 := lays_tableRows
        (fun d hh => hd d (by rw [← hsplit]; exact List.mem_append_left _ hh)) hs hqv.left hp
      have h2 := lays_remaining
        (fun d hh => hd d (by rw [← hsplit]; exact List.mem_append_right _ hh)) hqv.right hqq
      refine ⟨u ++ (p ++ q) ++ w, by simp, ?_⟩
      have := h1.append h2
      rw [hsplit] at this
      exact (this.pre hu).post hw
    · exact .inr h

end Verif.Format
