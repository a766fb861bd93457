import Verif.Lemmas.Inline
import Verif.Props.Layout

/-!
# Expressions without comments on one line
-/

namespace Verif.Format
open Verif.Syntax

variable {o : Opts}

/-! ## Lists -/

/-- The entry on one line. -/
def ItemDoc.lined (o : Opts) (d : ItemDoc) : Prop :=
  Lined d.doc (d.arg.inline o) ∧ Lined d.grouped (d.arg.inline o)

/-- The separator on one line. -/
def sepIn (s : Option Token) : Option (List El) := (s.map oneTok).getD (some [])

theorem lined_sep (d : ItemDoc) : Lined d.sepDoc (sepIn d.sep) := by
  unfold ItemDoc.sepDoc sepIn
  cases d.sep with
  | none => exact lined_nil
  | some s => exact lined_word s

/-- Entries after the first one. -/
def tailIn (o : Opts) : List (Arg × Option Token) → List (Option (List El))
  | [] => []
  | (x, s) :: xs => blank :: x.inline o :: sepIn s :: tailIn o xs

def entryOf (d : ItemDoc) : Arg × Option Token := (d.arg, d.sep)

theorem lined_full {d : ItemDoc} (h : d.lined o) : Lined d.full (inLine [d.arg.inline o, sepIn d.sep]) :=
  lined_cat h.1 (lined_one (lined_sep d))

theorem lined_args_tail : (ds : List ItemDoc) → (∀ d ∈ ds, d.lined o) →
    Lined (argsTail ds) (inLine (tailIn o (ds.map entryOf)))
  | [], _ => lined_nil
  | d :: ds, h => by
    refine lined_app (As := [blank]) (lined_one ?_) (lined_app (lined_full (h d (by simp)))
      (lined_args_tail ds fun e he => h e (by simp [he])))
    split
    · exact lined_sos
    · exact lined_empty _

theorem lined_params_tail : (ds : List ItemDoc) → (∀ d ∈ ds, d.lined o) →
    Lined (paramsTail ds) (inLine (tailIn o (ds.map entryOf)))
  | [], _ => lined_nil
  | d :: ds, h => by
    refine lined_app (As := [blank]) (lined_one ?_) (lined_app (lined_full (h d (by simp)))
      (lined_params_tail ds fun e he => h e (by simp [he])))
    split
    · exact lined_empty _
    · exact lined_sos

/-- First entry and the others. -/
def joinIn (o : Opts) : List (Arg × Option Token) → List (Option (List El))
  | [] => []
  | (x, s) :: xs => x.inline o :: sepIn s :: tailIn o xs

theorem lined_args_join (ds : List ItemDoc) (h : ∀ d ∈ ds, d.lined o) :
    Lined (argsJoin ds) (inLine (joinIn o (ds.map entryOf))) := by
  cases ds with
  | nil => exact lined_nil
  | cons d ds =>
    exact lined_app (lined_full (h d (by simp))) (lined_args_tail ds fun e he => h e (by simp [he]))

theorem lined_params_join (ds : List ItemDoc) (h : ∀ d ∈ ds, d.lined o) :
    Lined (paramsJoin ds) (inLine (joinIn o (ds.map entryOf))) := by
  cases ds with
  | nil => exact lined_nil
  | cons d ds =>
    exact lined_app (lined_full (h d (by simp))) (lined_params_tail ds fun e he => h e (by simp [he]))

theorem lined_grouped {ex single : Bool} : (ds : List ItemDoc) → (∀ d ∈ ds, d.lined o) →
    Lined (groupedJoin ex single ds) (inLine (joinIn o (ds.map entryOf)))
  | [], _ => lined_nil
  | [d], h => by
    have hd : Lined ((if single then d.doc else d.grouped) ⊹ d.sepDoc)
        (inLine (joinIn o ([d].map entryOf))) := by
      refine lined_cat ?_ (lined_cat (lined_sep d) lined_nil' |> fun h => ?_)
      · split
        · exact (h d (by simp)).1
        · exact (h d (by simp)).2
      · exact lined_one (lined_sep d)
    unfold groupedJoin
    dsimp only
    split
    · exact lined_group hd
    · exact hd
  | d :: e :: ds, h => by
    refine lined_app (lined_full (h d (by simp))) (lined_app (As := [blank]) (lined_one lined_sos) ?_)
    exact lined_grouped (e :: ds) fun f hf => h f (by simp [hf])

theorem lined_test : (ds : List ItemDoc) → (∀ d ∈ ds, d.lined o) →
    Lined (testJoin ds) (inLine (joinIn o (ds.map entryOf)))
  | [], _ => lined_nil
  | [d], h => lined_full (h d (by simp))
  | d :: e :: ds, h => by
    refine lined_app (lined_full (h d (by simp))) (lined_app (As := [blank]) (lined_one lined_space) ?_)
    exact lined_test (e :: ds) fun f hf => h f (by simp [hf])

/-! ## Entries of a list -/

/-- All entries. -/
def entsIn (o : Opts) (first omitted : Bool) : List (Arg × Option Token) → List (Option (List El))
  | [] => []
  | (x, s) :: xs => between first omitted x :: x.inline o :: sepIn s :: entsIn o false (omitted && x.isHole) xs

theorem items_inline (o : Opts) : (first omitted : Bool) → (xs : Items) →
    xs.inline o first omitted = inLine (entsIn o first omitted xs.entries)
  | _, _, .nil => rfl
  | first, omitted, .last x => by
    unfold Items.inline Items.entries entsIn
    exact (inLine_congr (As := [_, _]) (inLine_unit _)).symm
  | first, omitted, .cons x s xs => by
    unfold Items.inline Items.entries entsIn
    rw [items_inline o false _ xs]
    exact inLine_nest [_, _, _] _ [] |>.trans (by simp [sepIn])

theorem entsIn_tail (o : Opts) : (xs : List (Arg × Option Token)) → entsIn o false false xs = tailIn o xs
  | [] => rfl
  | (x, s) :: xs => by
    rw [entsIn, tailIn, Bool.false_and, entsIn_tail o xs]
    rfl

theorem entsIn_join (o : Opts) {omitted : Bool} {x : Arg} {s : Option Token} {xs : List (Arg × Option Token)}
    (h : (omitted && x.isHole) = false) :
    inLine (entsIn o true omitted ((x, s) :: xs)) = inLine (joinIn o ((x, s) :: xs)) := by
  rw [entsIn, h, entsIn_tail]
  exact inLine_unit _

/-- Entries that are left out at the beginning. -/
theorem entsIn_holes (o : Opts) : (hs : List ItemDoc) → (∀ d ∈ hs, d.isHole = true) → (first : Bool) →
    (xs : List (Arg × Option Token)) → (∀ x s ys, xs = (x, s) :: ys → x.isHole = false) →
    inLine (entsIn o first true (hs.map entryOf ++ xs)) =
      inLine (hs.map (fun d => sepIn d.sep) ++
        ((if first && hs.isEmpty || xs.isEmpty then some [] else blank) :: joinIn o xs))
  | [], _, first, [], _ => by simp [entsIn, joinIn, inLine]
  | [], _, first, (x, s) :: xs, h => by
    have := h x s xs rfl
    simp only [List.map_nil, List.nil_append, entsIn, joinIn, between, this, Bool.and_false, Bool.or_false,
      List.isEmpty_nil, Bool.and_true, List.isEmpty_cons, entsIn_tail]
  | d :: hs, hh, first, xs, h => by
    have hd := hh d (by simp)
    obtain ⟨arg, sep, _, _, _⟩ := d
    cases arg with
    | hole a =>
      simp only [List.map_cons, List.cons_append, entryOf, entsIn, between, Arg.isHole, Bool.and_self,
        Bool.or_true, if_true, Arg.inline, inLine_unit]
      have ih := entsIn_holes o hs (fun e he => hh e (by simp [he])) false xs h
      refine (inLine_congr (As := [_]) ih).trans ?_
      simp
    | _ => simp [ItemDoc.isHole] at hd

theorem lined_holes : (hs : List ItemDoc) → (∀ d ∈ hs, d.isHole = true) → (∀ d ∈ hs, d.lined o) →
    Lined (catAll (hs.map ItemDoc.full)) (inLine (hs.map fun d => sepIn d.sep))
  | [], _, _ => lined_nil
  | d :: hs, hh, hl => by
    have h := lined_full (hl d (by simp))
    have hd := hh d (by simp)
    have e : d.arg.inline o = some [] := by
      unfold ItemDoc.isHole at hd
      split at hd
      · next a ha => rw [ha, Arg.inline]
      · cases hd
    rw [e, inLine_unit] at h
    exact lined_app (As := [_]) h (lined_holes hs (fun e he => hh e (by simp [he])) fun e he => hl e (by simp [he]))

/-! ## Arguments and parameters -/

theorem inLine_suffix {As Bs : List (Option (List El))} (h : inLine As = inLine Bs) (Cs : List (Option (List El))) :
    inLine (As ++ Cs) = inLine (Bs ++ Cs) := by
  refine Option.ext fun L => ?_
  rw [inLine_append, inLine_append, h]

theorem inLine_head {A : Option (List El)} {Bs Cs : List (Option (List El))} (h : inLine Bs = inLine Cs) :
    inLine (A :: Bs) = inLine (A :: Cs) := inLine_congr (As := [A]) h

theorem lined_maybe (c : Bool) : Lined (maybeSpace c) (if c then blank else some []) := by
  cases c
  · exact lined_nil
  · exact lined_space

/-- Everything between the delimiters. -/
theorem lined_list {l r : Token} {hs as : List ItemDoc} (hd : ∀ d ∈ hs ++ as, d.lined o)
    (hh : ∀ d ∈ hs, d.isHole = true) (ha : ∀ x s ys, as.map entryOf = (x, s) :: ys → x.isHole = false) :
    inLine (oneTok l :: (entsIn o true true ((hs ++ as).map entryOf) ++ [oneTok r])) =
      inLine ([oneTok l] ++ (hs.map (fun d => sepIn d.sep) ++
        ([if !hs.isEmpty && !as.isEmpty then blank else some []] ++ (joinIn o (as.map entryOf) ++ [oneTok r])))) := by
  have := entsIn_holes o hs hh true (as.map entryOf) ha
  rw [← List.map_append] at this
  refine (inLine_congr (As := [oneTok l]) (inLine_suffix this [oneTok r])).trans ?_
  have e : (if true && hs.isEmpty || (as.map entryOf).isEmpty then some [] else blank) =
      (if !hs.isEmpty && !as.isEmpty then blank else some []) := by
    cases hs <;> cases as <;> rfl
  rw [e]
  simp

theorem lined_broken {ex : Bool} {l r : Token} {hs as : List ItemDoc} (hd : ∀ d ∈ hs ++ as, d.lined o)
    (hh : ∀ d ∈ hs, d.isHole = true) (ha : ∀ x s ys, as.map entryOf = (x, s) :: ys → x.isHole = false) :
    Lined (brokenOut ex l hs as r)
      (inLine (oneTok l :: (entsIn o true true ((hs ++ as).map entryOf) ++ [oneTok r]))) := by
  rw [lined_list hd hh ha]
  have hj := lined_args_join as fun d h => hd d (by simp [h])
  refine lined_group (lined_app (lined_one (lined_word l)) (lined_app
    (lined_holes hs hh fun d h => hd d (by simp [h])) (lined_app (lined_one (lined_maybe _)) (lined_app ?_
      (lined_one (lined_word r))))))
  split
  · next h =>
    obtain rfl := List.isEmpty_iff.mp h
    exact lined_nil
  · split
    · exact hj
    · exact lined_softBlock hj

theorem lined_groupedArgs {l r : Token} {hs as : List ItemDoc} (hd : ∀ d ∈ hs ++ as, d.lined o)
    (hh : ∀ d ∈ hs, d.isHole = true) (ha : ∀ x s ys, as.map entryOf = (x, s) :: ys → x.isHole = false) :
    Lined (groupedArgs l hs as r)
      (inLine (oneTok l :: (entsIn o true true ((hs ++ as).map entryOf) ++ [oneTok r]))) := by
  have key : ∀ ex, Lined ((tokDoc l ⊹ catAll (hs.map ItemDoc.full) ⊹ maybeSpace (!hs.isEmpty && !as.isEmpty)) ⊹
      groupedJoin ex (as.length == 1) as ⊹ tokDoc r)
      (inLine (oneTok l :: (entsIn o true true ((hs ++ as).map entryOf) ++ [oneTok r]))) := by
    intro ex
    rw [lined_list hd hh ha]
    have := lined_app (lined_app (lined_one (lined_word l)) (lined_app
      (lined_holes hs hh fun d h => hd d (by simp [h])) (lined_one (lined_maybe (!hs.isEmpty && !as.isEmpty)))))
      (lined_app (lined_grouped (ex := ex) (single := as.length == 1) as fun d h => hd d (by simp [h]))
        (lined_one (lined_word r)))
    simpa only [List.append_assoc] using this
  exact lined_alt (lined_group (key false)) (lined_alt (lined_group (key true)) (lined_broken hd hh ha))

theorem lined_args {k : CallKind} {l r : Token} {items : Items} {ds : List ItemDoc}
    (hd : ∀ d ∈ ds, d.lined o) (he : ds.map entryOf = items.entries)
    (hh : ∀ a s, (Arg.hole a, s) ∈ items.entries → a.all = []) :
    Lined (argsDoc o k {} l items ds r) (inLine [oneTok l, items.inline o true true, oneTok r]) := by
  rw [items_inline]
  rw [show inLine [oneTok l, inLine (entsIn o true true items.entries), oneTok r] =
    inLine (oneTok l :: (entsIn o true true items.entries ++ [oneTok r])) from inLine_nest [oneTok l] _ [oneTok r], ← he]
  unfold argsDoc
  split
  · next h =>
    obtain rfl := List.isEmpty_iff.mp h
    refine lined_cat (lined_word l) (lined_one ?_)
    rintro m i _ ⟨x, y, rfl, (rfl : x = _), (rfl : y = _)⟩ -
    exact ⟨_, rfl, rfl⟩
  · split
    · next ht =>
      cases ds with
      | nil =>
        next h => exact absurd rfl h
      | cons d ds =>
        have h0 : d.arg.isHole = false := by
          obtain ⟨x, y, _, _, _, _, _, _, _, _, hx, hv, -⟩ := isTestCall_titled ht.2
          rw [← entries_args, ← he] at hx
          simp only [List.map_cons, List.cons.injEq] at hx
          have : d.arg = x := hx.1
          rw [this]
          cases x <;> first | rfl | cases hv
        have := entsIn_join o (omitted := true) (x := d.arg) (s := d.sep) (xs := ds.map entryOf) (by rw [h0]; rfl)
        rw [inLine_head (A := oneTok l) (inLine_suffix (As := entsIn o true true ((d :: ds).map entryOf)) this [oneTok r])]
        exact lined_app (lined_one (lined_word l)) (lined_app (lined_test _ hd) (lined_one (lined_word r)))
    · have hs : ds = ds.takeWhile ItemDoc.isHole ++ ds.dropWhile ItemDoc.isHole := by
        rw [List.takeWhile_append_dropWhile]
      have h1 : ∀ d ∈ ds.takeWhile ItemDoc.isHole, d.isHole = true := fun d h => by
        have := List.all_takeWhile (p := ItemDoc.isHole) (l := ds)
        rw [List.all_eq_true] at this
        exact this d h
      have h2 : ∀ x s ys, (ds.dropWhile ItemDoc.isHole).map entryOf = (x, s) :: ys → x.isHole = false := by
        intro x s ys hx
        cases hq : ds.dropWhile ItemDoc.isHole with
        | nil => rw [hq] at hx; cases hx
        | cons d es =>
          rw [hq] at hx
          simp only [List.map_cons, List.cons.injEq, entryOf, Prod.mk.injEq] at hx
          have hn : d.isHole = false := by
            have := List.head?_dropWhile_not ItemDoc.isHole ds
            rw [hq] at this
            simpa using this
          rw [← hx.1.1]
          have hmem : (d.arg, d.sep) ∈ items.entries := by
            rw [← he]
            refine List.mem_map.mpr ⟨d, ?_, rfl⟩
            have : d ∈ ds.dropWhile ItemDoc.isHole := by rw [hq]; simp
            exact (List.dropWhile_sublist _).subset this
          cases hda : d.arg with
          | hole a =>
            rw [hda] at hmem
            unfold ItemDoc.isHole at hn
            rw [hda, Ann.eq_nil (hh a _ hmem)] at hn
            cases hn
          | _ => rfl
      have hd' := hd
      rw [hs] at hd'
      have hb : ∀ ex, Lined (brokenOut ex l (ds.takeWhile ItemDoc.isHole) (ds.dropWhile ItemDoc.isHole) r)
          (inLine (oneTok l :: (entsIn o true true (ds.map entryOf) ++ [oneTok r]))) := by
        intro ex
        have := lined_broken (ex := ex) (l := l) (r := r) hd' h1 h2
        rwa [← hs] at this
      dsimp only
      split
      · exact hb true
      · split
        · exact hb true
        · split
          · have := lined_groupedArgs (l := l) (r := r) hd' h1 h2
            rwa [← hs] at this
          · exact hb false

theorem lined_params {l r : Token} {items : Items} {ds : List ItemDoc}
    (hd : ∀ d ∈ ds, d.lined o) (he : ds.map entryOf = items.entries) :
    Lined (paramsDoc o {} l ds r) (inLine [oneTok l, items.inline o true false, oneTok r]) := by
  rw [items_inline]
  rw [show inLine [oneTok l, inLine (entsIn o true false items.entries), oneTok r] =
    inLine (oneTok l :: (entsIn o true false items.entries ++ [oneTok r])) from inLine_nest [oneTok l] _ [oneTok r], ← he]
  refine lined_node ?_
  cases ds with
  | nil =>
    refine lined_cat (lined_word l) (lined_one ?_)
    rintro m i _ ⟨x, y, rfl, (rfl : x = _), (rfl : y = _)⟩ -
    exact ⟨_, rfl, rfl⟩
  | cons d ds =>
    have := entsIn_join o (omitted := false) (x := d.arg) (s := d.sep) (xs := ds.map entryOf) rfl
    rw [inLine_head (A := oneTok l) (inLine_suffix (As := entsIn o true false ((d :: ds).map entryOf)) this [oneTok r])]
    exact lined_group (lined_app (lined_one (lined_word l)) (lined_app
      (lined_softBlock (lined_params_join _ hd)) (lined_one (lined_word r))))

/-! ## Operators -/

theorem assignTok_operator {cx : Cx} {p : Place} (h : cx.eq = p.assign) (op : Token) :
    Lined (.tok (assignTok o cx op)) (oneTok (operator o p op)) := by
  have : assignTok o cx op = outTok (operator o p op) := by
    unfold assignTok operator
    rw [h]
    split
    · next hk hs => simp [hk, hs, outTok]
    · next hk hs =>
      cases hp : p.assign <;> simp [hk, hs, outTok]
    · next hk hs =>
      rw [if_neg (fun hc => hk hc.1 hc.2), if_neg (fun hc => hs hc.1 hc.2.1)]
  rw [this]
  exact lined_word _

theorem operator_other {p : Place} {op : Token} (h : assigns op.kind = false) : operator o p op = op := by
  unfold operator
  rw [if_neg, if_neg]
  · rintro ⟨hk, -⟩
    rw [hk] at h
    cases h
  · rintro ⟨hk, -⟩
    rw [hk] at h
    cases h

theorem opCx_operand {cx : Cx} {p : Place} (h : cx.eq = p.assign) (op : Kind) :
    (opCx cx op).eq = (p.operand op).assign := by
  unfold opCx Place.operand
  rw [← h]
  cases op <;> simp [Bool.and_comm] <;> decide

end Verif.Format
