import Verif.Lemmas.NotedSim

/-!
# Comments before statements, printed like statements: arguments and parameters
-/

namespace Verif.Format
open Verif.Syntax

variable {o : Opts} {N : Nat} {q : Prop} {h : Token → Token} {d d0 e0 : Doc} {cx : Cx}

/-- Lists of the same length with related elements. -/
inductive Pairs {α β : Type} (R : α → β → Prop) : List α → List β → Prop
  | nil : Pairs R [] []
  | cons {a : α} {b : β} {as : List α} {bs : List β} : R a b → Pairs R as bs → Pairs R (a :: as) (b :: bs)

theorem Pairs.takeWhile {α β : Type} {R : α → β → Prop} {p : α → Bool} {p' : β → Bool}
    (hp : ∀ a b, R a b → p a = p' b) {as : List α} {bs : List β} (h : Pairs R as bs) :
    Pairs R (as.takeWhile p) (bs.takeWhile p') := by
  induction h with
  | nil => exact .nil
  | cons h1 _ ih =>
    rw [List.takeWhile_cons, List.takeWhile_cons, hp _ _ h1]
    split
    · exact .cons h1 ih
    · exact .nil

theorem Pairs.dropWhile {α β : Type} {R : α → β → Prop} {p : α → Bool} {p' : β → Bool}
    (hp : ∀ a b, R a b → p a = p' b) {as : List α} {bs : List β} (h : Pairs R as bs) :
    Pairs R (as.dropWhile p) (bs.dropWhile p') := by
  induction h with
  | nil => exact .nil
  | cons h1 h2 ih =>
    rw [List.dropWhile_cons, List.dropWhile_cons, hp _ _ h1]
    split
    · exact ih
    · exact .cons h1 h2

theorem Pairs.any {α β : Type} {R : α → β → Prop} {p : α → Bool} {p' : β → Bool}
    (hp : ∀ a b, R a b → p a = p' b) {as : List α} {bs : List β} (h : Pairs R as bs) : as.any p = bs.any p' := by
  induction h with
  | nil => rfl
  | cons h1 _ ih => rw [List.any_cons, List.any_cons, hp _ _ h1, ih]

theorem Pairs.isEmpty {α β : Type} {R : α → β → Prop} {as : List α} {bs : List β} (h : Pairs R as bs) :
    as.isEmpty = bs.isEmpty := by
  cases h <;> rfl

theorem Pairs.length {α β : Type} {R : α → β → Prop} {as : List α} {bs : List β} (h : Pairs R as bs) :
    as.length = bs.length := by
  induction h with
  | nil => rfl
  | cons _ _ ih => simp [ih]

/-- May an argument be put on the line of the parentheses around it, if it is the only one? -/
def ItemDoc.hugs (x : ItemDoc) : Bool :=
  match x.arg with
  | .val _ e => !commentsDirect e.tokens && e.isCall
  | _ => false

/-- Entries that are printed alike. -/
structure SimItem (N : Nat) (q : Prop) (x x0 : ItemDoc) : Prop where
  doc : Sim N q x.doc x0.doc
  grouped : Sim N q x.grouped x0.grouped
  sep : Sim N q x.sepDoc x0.sepDoc
  lines : x.lines = x0.lines
  sepLines : x.sepLines = x0.sepLines
  hole : x.isHole = x0.isHole
  hugs : x.hugs = x0.hugs
  newline : leadingNewline x.arg.tokens = leadingNewline x0.arg.tokens

theorem SimItem.full {x x0 : ItemDoc} (h : SimItem N q x x0) : Sim N q x.full x0.full := h.doc.cat h.sep

variable {ds ds0 holes holes0 args args0 : List ItemDoc} {l l0 r r0 : Token}

theorem sim_catAll (h : Pairs (SimItem N q) ds ds0) :
    Sim N q (catAll (ds.map ItemDoc.full)) (catAll (ds0.map ItemDoc.full)) := by
  induction h with
  | nil => exact sim_nil
  | cons h1 _ ih => exact h1.full.cat ih

theorem sim_argsTail (h : Pairs (SimItem N q) ds ds0) : Sim N q (argsTail ds) (argsTail ds0) := by
  induction h with
  | nil => exact sim_nil
  | cons h1 _ ih =>
    rw [argsTail, argsTail, h1.lines]
    exact (sim_line _).cat (h1.full.cat ih)

theorem sim_argsJoin (h : Pairs (SimItem N q) ds ds0) : Sim N q (argsJoin ds) (argsJoin ds0) := by
  cases h with
  | nil => exact sim_nil
  | cons h1 h2 => exact h1.full.cat (sim_argsTail h2)

theorem sim_paramsTail (h : Pairs (SimItem N q) ds ds0) : Sim N q (paramsTail ds) (paramsTail ds0) := by
  induction h with
  | nil => exact sim_nil
  | cons h1 _ ih =>
    rw [paramsTail, paramsTail, h1.lines]
    exact (sim_line _).cat (h1.full.cat ih)

theorem sim_testJoin (h : Pairs (SimItem N q) ds ds0) : Sim N q (testJoin ds) (testJoin ds0) := by
  induction h with
  | nil => exact sim_nil
  | cons h1 h2 ih =>
    cases h2 with
    | nil => exact h1.full
    | cons h3 h4 => exact h1.full.cat (sim_space.cat ih)

theorem sim_groupedJoin {ex single : Bool} (h : Pairs (SimItem N q) ds ds0) :
    Sim N q (groupedJoin ex single ds) (groupedJoin ex single ds0) := by
  induction h with
  | nil => exact sim_nil
  | cons h1 h2 ih =>
    cases h2 with
    | nil =>
      cases single <;> cases ex
      · exact h1.grouped.cat h1.sep
      · exact (h1.grouped.cat h1.sep).group
      · exact h1.doc.cat h1.sep
      · exact (h1.doc.cat h1.sep).group
    | cons h3 h4 => exact h1.full.cat ((sim_line _).cat ih)

theorem hugging_hugs (hr : hasComment r.leading = false) (ds : List ItemDoc) :
    hugging r ds = (match ds with | [x] => x.hugs | _ => false) := by
  match ds with
  | [] => rfl
  | [⟨x, sep, doc, grouped, fields⟩] =>
    cases x with
    | val a e =>
      simp only [hugging, ItemDoc.hugs, hr, Bool.or_false]
      cases e <;> rfl
    | _ => rfl
  | _ :: _ :: _ => rfl

theorem hugging_pairs (hr : hasComment r.leading = false) (hr0 : hasComment r0.leading = false)
    (h : Pairs (SimItem N q) ds ds0) : hugging r ds = hugging r0 ds0 := by
  rw [hugging_hugs hr, hugging_hugs hr0]
  cases h with
  | nil => rfl
  | cons h1 h2 =>
    cases h2 with
    | nil => exact h1.hugs
    | cons _ _ => rfl

theorem sim_brokenOut {expand : Bool} (hl : Sim N q (tokDoc l) (tokDoc l0)) (hr : Sim N q (tokDoc r) (tokDoc r0))
    (hc : hasComment r.leading = false) (hc0 : hasComment r0.leading = false) (hh : Pairs (SimItem N q) holes holes0)
    (ha : Pairs (SimItem N q) args args0) :
    Sim N q (brokenOut expand l holes args r) (brokenOut expand l0 holes0 args0 r0) := by
  unfold brokenOut
  rw [hh.isEmpty, ha.isEmpty, hugging_pairs hc hc0 ha]
  refine (hl.cat ((sim_catAll hh).cat ((sim_maybe _).cat (Sim.cat ?_ hr)))).group
  split
  · exact sim_nil
  · split
    · exact sim_argsJoin ha
    · exact sim_soft (sim_argsJoin ha)

theorem sim_argsDoc {k : CallKind} {items items0 : Items} (hl : Sim N q (tokDoc l) (tokDoc l0))
    (hr : Sim N q (tokDoc r) (tokDoc r0)) (hc : hasComment r.leading = false) (hc0 : hasComment r0.leading = false)
    (ht : isTestCall items = isTestCall items0) (hg : groupLast items = groupLast items0)
    (hd : Pairs (SimItem N q) ds ds0) :
    Sim N q (argsDoc o k {} l items ds r) (argsDoc o k {} l0 items0 ds0 r0) := by
  have hh := hd.takeWhile (p := ItemDoc.isHole) (p' := ItemDoc.isHole) (fun _ _ h => h.hole)
  have ha := hd.dropWhile (p := ItemDoc.isHole) (p' := ItemDoc.isHole) (fun _ _ h => h.hole)
  unfold argsDoc
  rw [hd.isEmpty, ht, hg]
  simp only
  rw [hh.any (p := fun h => decide (h.sepLines > 1)) (p' := fun h => decide (h.sepLines > 1)) (fun _ _ h => by rw [h.sepLines]),
    ha.any (p := fun h => decide (h.lines > 1)) (p' := fun h => decide (h.lines > 1)) (fun _ _ h => by rw [h.lines])]
  have hb : argsBreak o (ds.takeWhile ItemDoc.isHole) (ds.dropWhile ItemDoc.isHole) =
      argsBreak o (ds0.takeWhile ItemDoc.isHole) (ds0.dropWhile ItemDoc.isHole) := by
    unfold argsBreak
    rw [hh.any (p := fun h => decide (h.sepLines > 0)) (p' := fun h => decide (h.sepLines > 0)) (fun _ _ h => by rw [h.sepLines])]
    congr 2
    generalize ds.dropWhile ItemDoc.isHole = as at *
    generalize ds0.dropWhile ItemDoc.isHole = as0 at *
    cases ha with
    | nil => rfl
    | cons h1 _ => simp only [h1.lines]
  rw [hb]
  split
  · exact hl.cat (sim_nil.cat hr)
  · split
    · exact hl.cat ((sim_testJoin hd).cat hr)
    · split
      · exact sim_brokenOut hl hr hc hc0 hh ha
      · split
        · exact sim_brokenOut hl hr hc hc0 hh ha
        · split
          · unfold groupedArgs
            simp only
            rw [hh.isEmpty, ha.isEmpty, ha.length]
            have hp := hl.cat ((sim_catAll hh).cat (sim_maybe (!(ds0.takeWhile ItemDoc.isHole).isEmpty &&
              !(ds0.dropWhile ItemDoc.isHole).isEmpty)))
            exact (hp.cat ((sim_groupedJoin ha).cat hr)).group.alt
              ((hp.cat ((sim_groupedJoin ha).cat hr)).group.alt (sim_brokenOut hl hr hc hc0 hh ha))
          · exact sim_brokenOut hl hr hc hc0 hh ha

theorem sim_paramsDoc (hl : Sim N q (tokDoc l) (tokDoc l0)) (hr : Sim N q (tokDoc r) (tokDoc r0))
    (hd : Pairs (SimItem N q) ds ds0) : Sim N q (paramsDoc o {} l ds r) (paramsDoc o {} l0 ds0 r0) := by
  unfold paramsDoc
  apply sim_nodeNil
  cases hd with
  | nil => exact hl.cat (sim_nil.cat hr)
  | cons h1 h2 =>
    simp only [h1.newline]
    exact (hl.cat ((sim_soft (h1.full.cat (sim_paramsTail h2))).cat hr)).group

/-! ## Entries -/

theorem voiced_args (xs : Items) : (xs.voiced N).args = xs.args.map (Arg.voiced N) := by
  match xs with
  | .nil => rfl
  | .last x => rfl
  | .cons x s xs => simp [Items.voiced, Items.args, voiced_args xs]

theorem voiced_value (x : Arg) : (x.voiced N).value = x.value.map (Expr.voiced N hush) := by cases x <;> rfl

theorem voiced_test (xs : Items) : isTestCall xs = isTestCall (xs.voiced N) := by
  unfold isTestCall
  rw [voiced_args]
  match xs.args with
  | [] => rfl
  | [_] => rfl
  | [x, y] =>
    simp only [List.map_cons, List.map_nil, voiced_value]
    generalize x.value = v
    generalize y.value = w
    have h1 : ∀ v w : Option Expr, (match v with | some (.str ..) => true | _ => false) =
        (match v.map (Expr.voiced N hush) with | some (.str ..) => true | _ => false) ∧
        (match w with | some (.braced ..) => true | _ => false) =
        (match w.map (Expr.voiced N hush) with | some (.braced ..) => true | _ => false) := by
      intro v w
      constructor
      · cases v with
        | none => rfl
        | some e => cases e <;> rfl
      · cases w with
        | none => rfl
        | some e => cases e <;> rfl
    exact congr (congrArg and (h1 v w).1) (h1 v w).2
  | _ :: _ :: _ :: _ => rfl

theorem voiced_groupable {e : Expr} (hn : e.Noted o N) (h : Token → Token) : groupable (e.voiced N h) = groupable e := by
  cases e with
  | braced a l es r => exact groupable_voiced hn.1.1 hn.2.2.1
  | func a kw pa l items r b =>
    cases b with
    | braced a l es r =>
      obtain ⟨-, -, -, -, -, -, -, h1, h2⟩ := hn
      exact groupable_voiced h2.1.1 h2.2.2.1
    | _ => rfl
  | _ => rfl

theorem noted_args : (xs : Items) → xs.Noted o N → ∀ x ∈ xs.args, x.Noted o N
  | .nil, _, _, hx => by cases hx
  | .last y, hn, x, hx => by cases List.mem_singleton.1 hx; exact hn
  | .cons y s xs, hn, x, hx => by
    rcases List.mem_cons.1 hx with rfl | hx
    · exact hn.1
    · exact noted_args xs hn.2.2 x hx

theorem noted_value {x : Arg} (hn : x.Noted o N) {e : Expr} (he : x.value = some e) : e.Noted o N := by
  cases x with
  | val a e' => cases he; exact hn.2.2.2
  | named a na n p e' => cases he; exact hn.2.2.2.2.2.2
  | pdef a n da p e' => cases he; exact hn.2.2.2.2.2.2
  | _ => cases he

theorem noted_names {x : Arg} (hn : x.Noted o N) : x.ann.any = false ∧ x.nameAnn.any = false := by
  refine ⟨by rw [hn.ann]; rfl, ?_⟩
  cases x with
  | name a na n p => rw [Arg.nameAnn, hn.2.1]; rfl
  | named a na n p e => rw [Arg.nameAnn, hn.2.1]; rfl
  | _ => rfl

theorem voiced_group {xs : Items} (hn : xs.Noted o N) : groupLast xs = groupLast (xs.voiced N) := by
  unfold groupLast
  rw [voiced_args, List.getLast?_map]
  cases hx : xs.args.getLast? with
  | none => rfl
  | some x =>
    have h1 := noted_args xs hn x (List.mem_of_getLast? hx)
    obtain ⟨h2, h3⟩ := noted_names h1
    have h4 : (x.voiced N).ann.any = false ∧ (x.voiced N).nameAnn.any = false := by
      cases x <;> exact ⟨rfl, rfl⟩
    simp only [Option.map_some, h2, h3, h4.1, h4.2, voiced_value]
    cases hv : x.value with
    | none => rfl
    | some e => simp only [Option.map_some, voiced_groupable (noted_value h1 hv)]

end Verif.Format
