import Verif.Lemmas.FormatBlock
import Verif.Spec.Persistent

/-!
# Arguments and parameters on lines of their own
-/

namespace Verif.Format
open Verif.Syntax

/-! ## After an entry -/

/-- After every layout the output ends with text, possibly followed by one line feed. -/
def DRest (d : Doc) : Prop := ∀ ns m i x, Lays ns m i d x → ∀ s, Rest (run s x).1 (run s x).2

theorem DEnds.rest {d : Doc} (h : DEnds d) : DRest d := fun _ _ _ _ hx s => (h _ _ _ _ hx).rest s

theorem DRest.right {b : Doc} (h : DRest b) (a : Doc) : DRest (a ⊹ b) := by
  rintro ns m i x ⟨y, z, rfl, -, hz⟩ s
  rw [run_append]
  exact (h _ _ _ _ hz _).pre _

theorem DRest.may {a b : Doc} (h : DRest a) (hb : DMay b) : DRest (a ⊹ b) := by
  rintro ns m i x ⟨y, z, rfl, hy, hz⟩ s
  rw [run_append]
  rcases hb _ _ _ _ hz with hz | hz
  · exact (h _ _ _ _ hy s).tail z hz
  · exact (hz.rest _).pre _

theorem DRest.space {a : Doc} (h : DRest a) : DRest (a ⊹ .space) := by
  rintro ns m i x ⟨y, z, rfl, hy, (rfl : z = _)⟩ s
  rw [run_append, run_single]
  dsimp only [printEl]
  rw [List.append_nil]
  exact (h _ _ _ _ hy s).congr rfl rfl

theorem DRest.node {d dg : Doc} (h : DRest d) (hd : DMay dg) (a : Ann) : DRest (nodeDoc a d dg) :=
  (h.may (hd.append (DTail.trailing 0 a.trailing).may)).right _

/-- An argument that is not left out starts with text and ends with text. -/
theorem fmtArg_edges {o : Opts} {vcx : Cx} {x : Arg} (hx : x.isHole = false) :
    DBegins (fmtArg o vcx x) ∧ DRest (fmtArg o vcx x) := by
  cases x with
  | hole a => cases hx
  | val a e =>
    rw [fmtArg]
    exact ⟨fmt_begins o e _, (fmt_ends o e _).rest⟩
  | name a na n q =>
    rw [fmtArg]
    exact ⟨(((fmt_begins o n _).left _).node _ _).left _,
      ((((DEnds.tokDoc q).right _).right _).node (DMay.danglingSoft _) _).rest.space⟩
  | named a na n q e =>
    rw [fmtArg]
    exact ⟨(((fmt_begins o n _).left _).node _ _).left _, (((fmt_ends o e _).right _).right _).rest⟩
  | pdef a n da q e =>
    rw [fmtArg]
    exact ⟨(fmt_begins o n _).left _,
      (((((fmt_ends o e _).right _).right _).node (DMay.danglingSoft _) _).right _ |>.right _).rest⟩

theorem node_toks {a : Ann} {d dg : Doc} {ns : Bool} {m : Mode} {i : Nat} {x : List El}
    (h : Lays ns m i (nodeDoc a d dg) x)
    (hd : ∀ x, Lays ns m i dg x → printedToks x = []) :
    ∃ y, Lays ns m i d y ∧ printedToks x = printedToks y := by
  obtain ⟨p, q, rfl, hp, y, z, rfl, hy, u, v, rfl, hu, hv⟩ := h
  refine ⟨y, hy, ?_⟩
  rw [printedToks_append, printedToks_append, printedToks_append, leading_noTok _ _ _ _ _ hp,
    hd _ hu, trailing_noTok _ _ _ _ _ _ hv]
  simp

theorem fmt_becomes {o : Opts} {cx : Cx} {p : Place} {e : Expr} {ns : Bool} {m : Mode} {i : Nat}
    {y : List El} (hp : At cx p) (hy : Lays ns m i (fmt o cx e) y) :
    ∃ e', Becomes o p e e' ∧ printedToks y = e'.tokens.map outTok := by
  obtain ⟨e', hR, hr⟩ := fmt_toks hy
  have hp' : At cx.core p := ⟨hp.effect, hp.eq, hp.braces, hp.table⟩
  exact ⟨e', rew_becomes o _ _ _ _ hp' hR, hr⟩

theorem fmtArg_becomes {o : Opts} {vcx : Cx} {x : Arg} (hv : At vcx {}) {ns : Bool} {m : Mode} {i : Nat}
    {y : List El} (h : Lays ns m i (fmtArg o vcx x) y) :
    ∃ x', BecomesArg o x x' ∧ printedToks y = x'.tokens.map outTok := by
  cases x with
  | hole a =>
    rw [fmtArg] at h
    cases h
    exact ⟨.hole a, by rw [BecomesArg], rfl⟩
  | val a e =>
    rw [fmtArg] at h
    obtain ⟨e', he, ht⟩ := fmt_becomes hv h
    exact ⟨.val a e', by rw [BecomesArg]; exact .inr ⟨e', he, rfl⟩, by rw [ht, Arg.tokens]⟩
  | name a na n q =>
    rw [fmtArg] at h
    obtain ⟨u, v, rfl, hu, (rfl : v = _)⟩ := h
    obtain ⟨w, ⟨y, z, rfl, hy, s, t, rfl, (rfl : s = _), (rfl : t = _)⟩, hw⟩ :=
      node_toks hu (danglingSoft_noTok _ _ _ _)
    obtain ⟨n', hn, ht⟩ := fmt_becomes (At.plain vcx) hy
    refine ⟨.name a na n' q, by rw [BecomesArg]; exact .inr ⟨n', hn, rfl⟩, ?_⟩
    rw [printedToks_append, hw, printedToks_append, ht, Arg.tokens]
    simp [printedToks]
  | named a na n q e =>
    rw [fmtArg] at h
    obtain ⟨u, v, rfl, hu, s, t, rfl, (rfl : s = _), he⟩ := h
    obtain ⟨w, ⟨y, z, rfl, hy, s, t, rfl, (rfl : s = _), (rfl : t = _)⟩, hw⟩ :=
      node_toks hu (danglingSoft_noTok _ _ _ _)
    obtain ⟨n', hn, ht⟩ := fmt_becomes (At.plain vcx) hy
    obtain ⟨e', hb, ht'⟩ := fmt_becomes hv he
    refine ⟨.named a na n' q e', by rw [BecomesArg]; exact .inr ⟨n', e', hn, hb, rfl⟩, ?_⟩
    rw [printedToks_append, hw, printedToks_append, ht, printedToks_append, printedToks_append, ht',
      Arg.tokens]
    simp [printedToks]
  | pdef a n da q e =>
    rw [fmtArg] at h
    obtain ⟨u, v, rfl, hu, s, t, rfl, (rfl : s = _), he⟩ := h
    obtain ⟨w, ⟨y, z, rfl, (rfl : y = _), s, t, rfl, (rfl : s = _), hy⟩, hw⟩ :=
      node_toks he (danglingSoft_noTok _ _ _ _)
    obtain ⟨n', hn, ht⟩ := fmt_becomes (At.plain vcx) hu
    obtain ⟨e', hb, ht'⟩ := fmt_becomes hv hy
    refine ⟨.pdef a n' da q e', by rw [BecomesArg]; exact .inr ⟨n', e', hn, hb, rfl⟩, ?_⟩
    rw [printedToks_append, printedToks_append, hw, ht, printedToks_append, printedToks_append, ht',
      Arg.tokens]
    simp [printedToks]

/-- The entry is formatted as `fmtItems` does it without directives; if it is left out, it has no
comments. -/
def Formed (o : Opts) (d : ItemDoc) : Prop :=
  (∃ vcx, At vcx {} ∧
    d.doc = nodeDoc d.arg.ann (fmtArg o vcx d.arg) (danglingSoft d.arg.ann.dangling)) ∧
  (∀ a, d.arg = .hole a → a = {})

/-- Only the last entry has no separator. -/
def Formeds (o : Opts) : List ItemDoc → Prop
  | [] => True
  | d :: ds => Formed o d ∧ (d.sep = none → ds = []) ∧ Formeds o ds

theorem formed_becomes {o : Opts} {d : ItemDoc} (h : Formed o d) {ns : Bool} {m : Mode} {i : Nat}
    {x : List El} (hx : Lays ns m i d.full x) :
    ∃ x', BecomesArg o d.arg x' ∧ printedToks x = (x'.tokens ++ d.sep.toList).map outTok := by
  obtain ⟨⟨vcx, hv, hd⟩, -⟩ := h
  obtain ⟨y, z, rfl, hy, hz⟩ := hx
  rw [hd] at hy
  obtain ⟨w, hw, ht⟩ := node_toks hy (danglingSoft_noTok _ _ _ _)
  obtain ⟨x', hb, ht'⟩ := fmtArg_becomes hv hw
  refine ⟨x', hb, ?_⟩
  rw [printedToks_append, ht, ht', List.map_append]
  congr 1
  unfold ItemDoc.sepDoc at hz
  split at hz
  · next s hs => rw [hs]; cases hz; rfl
  · next hs => rw [hs]; cases hz; rfl

theorem formed_hole {o : Opts} {d : ItemDoc} {a : Ann} (h : Formed o d) (ha : d.arg = .hole a)
    {ns : Bool} {m : Mode} {i : Nat} {x : List El} (hx : Lays ns m i d.full x) :
    x = d.sep.toList.map (fun t => .tok (outTok t)) := by
  obtain ⟨⟨vcx, hv, hd⟩, hh⟩ := h
  obtain ⟨y, z, rfl, hy, hz⟩ := hx
  have := hh _ ha
  subst this
  rw [hd, ha] at hy
  obtain ⟨p, q, rfl, (rfl : p = _), y, z, rfl, hy, u, v, rfl, (rfl : u = _), (rfl : v = _)⟩ := hy
  rw [fmtArg] at hy
  cases hy
  unfold ItemDoc.sepDoc at hz
  split at hz
  · next s hs => rw [hs]; cases hz; rfl
  · next hs => rw [hs]; cases hz; rfl

theorem formed_edges {o : Opts} {d : ItemDoc} (h : Formed o d)
    (hh : ¬(d.arg.isHole = true ∧ d.sep = none)) {ns : Bool} {m : Mode} {i : Nat} {x : List El}
    (hx : Lays ns m i d.full x) : Begins x ∧ ∀ s, Rest (run s x).1 (run s x).2 := by
  by_cases hole : d.arg.isHole = true
  · obtain ⟨a, ha⟩ : ∃ a, d.arg = .hole a := by
      cases hd : d.arg <;> simp_all [Arg.isHole]
    cases hs : d.sep with
    | none => exact absurd ⟨hole, hs⟩ hh
    | some s =>
      have := formed_hole h ha hx
      rw [hs] at this
      subst this
      exact ⟨⟨_, _, rfl, rfl⟩, fun s => Ends.rest ⟨[], _, [], rfl, rfl, by simp⟩ s⟩
  · obtain ⟨⟨vcx, hv, hd⟩, -⟩ := h
    have he := fmtArg_edges (o := o) (vcx := vcx) (x := d.arg) (by simpa using hole)
    have h1 : DBegins d.full := by
      unfold ItemDoc.full
      rw [hd]
      exact (he.1.node _ _).left _
    have h2 : DRest d.full := by
      unfold ItemDoc.full
      rw [hd]
      refine (he.2.node (DMay.danglingSoft _) _).may ?_
      unfold ItemDoc.sepDoc
      split
      · exact (DEnds.tokDoc _).isMay
      · exact DTail.nil.may
    exact ⟨h1 _ _ _ _ hx, h2 _ _ _ _ hx⟩

/-! ## Entries one after the other -/

theorem Rest.drop {p r : List El} {a : El} {s : PState} (h : Rest (p ++ a :: r) s)
    (ha : a.isText = true) : Rest (a :: r) s := by
  rcases h with ⟨o, t, ho, ht, hs⟩ | ⟨o, t, ho, ht, hs, he⟩
  · obtain ⟨b, q, hb⟩ : ∃ b q, (a :: r) = q ++ [b] := ⟨_, _, (List.dropLast_concat_getLast (by simp)).symm⟩
    rw [hb, ← List.append_assoc] at ho
    have := List.append_inj' ho rfl
    obtain rfl : b = t := by simpa using this.2
    exact .inl ⟨q, b, hb, ht, hs⟩
  · rcases List.eq_nil_or_concat r with rfl | ⟨q, b, rfl⟩
    · have : p ++ [a] = (o ++ [t]) ++ [.rnl] := by simpa using ho
      have := List.append_inj' this rfl
      obtain rfl : a = .rnl := by simpa using this.2
      cases ha
    · have h1 : (p ++ a :: q) ++ [b] = (o ++ [t]) ++ [.rnl] := by simpa using ho
      have h2 := List.append_inj' h1 rfl
      obtain rfl : b = .rnl := by simpa using h2.2
      obtain ⟨c, q', hc⟩ : ∃ c q', (a :: q) = q' ++ [c] :=
        ⟨_, _, (List.dropLast_concat_getLast (by simp)).symm⟩
      have h3 := h2.1
      rw [hc, ← List.append_assoc] at h3
      obtain rfl : c = t := by simpa using (List.append_inj' h3 rfl).2
      refine .inr ⟨q', c, ?_, ht, hs, he⟩
      have : a :: (q ++ [El.rnl]) = (a :: q) ++ [.rnl] := rfl
      simp [this, hc]

/-- What starts with text prints the pending blanks first. -/
theorem begins_rest_run {x : List El} (hb : Begins x) (s : PState)
    (hr : Rest (run s x).1 (run s x).2) :
    ∃ a r, (run s x).1 = pendingEls s ++ a :: r ∧ a.isText = true ∧ Rest (a :: r) (run s x).2 := by
  obtain ⟨e, r, rfl, ht⟩ := hb
  have hpr : printEl s e = printText s e := by
    cases e <;> simp_all [El.isText, printEl]
  have h1 : (run s (e :: r)).1 = pendingEls s ++ e :: (run (printEl s e).2 r).1 := by
    simp only [run, hpr, printText_eq]
    rw [List.append_assoc]
    rfl
  refine ⟨e, _, h1, ht, ?_⟩
  rw [h1] at hr
  exact hr.drop ht

theorem begins_of_eq {a t : El} {r w r' rn : List El} (ha : a.isText = true) (ht : t.isText = true)
    (he : a :: r ++ w = r' ++ t :: rn) : ∃ b q, r' ++ [t] = b :: q ∧ b.isText = true := by
  cases r' with
  | nil => exact ⟨t, [], rfl, ht⟩
  | cons b r' =>
    have : a = b := (List.cons.inj he).1
    exact ⟨b, r' ++ [t], rfl, this ▸ ha⟩

theorem toks_of_eq {out w r' rn : List El} {t : El} (hw : printedToks w = [])
    (hrn : printedToks rn = []) (he : out ++ w = r' ++ t :: rn) :
    printedToks (r' ++ [t]) = printedToks out := by
  have h1 := congrArg printedToks he
  rw [printedToks_append, hw, List.append_nil,
    show r' ++ t :: rn = (r' ++ [t]) ++ rn by simp, printedToks_append (r' ++ [t]), hrn,
    List.append_nil] at h1
  exact h1.symm

/-- The entries after the first, in an expanded group. -/
theorem entries_run (o : Opts) : ∀ (ds : List ItemDoc) (i j : Nat) (s : PState) (out x : List El),
    Formeds o ds → Begins out → Rest out s → Lays false .expanded i (argsTail ds) x →
    ∃ a rest, out ++ (run s (x ++ [.nl false j])).1 = a ++ rest ++ [.rnl] ∧ Begins a ∧
      (∃ r t, a = r ++ [t] ∧ t.isText = true) ∧ printedToks a = printedToks out ∧
      Entries o i (ds.map fun d => (d.arg, d.sep)) rest ∧ Fresh j (run s (x ++ [.nl false j])).2
  | [], i, j, s, out, x, _, hb, hR, hx => by
    cases hx
    obtain ⟨o', t, s', ht, h1, h2, h3, h4, h5, h6, h7⟩ := hR.printNl false j
    rw [List.nil_append, run_single, h2]
    obtain ⟨b, r, rfl, hb⟩ := hb
    refine ⟨o' ++ [t], [], by rw [h1]; simp, begins_of_eq hb ht h1, ⟨o', t, rfl, ht⟩,
      toks_of_eq ?_ ?_ h1, rfl, h3, h4, h5, h7⟩
    · rw [← run_single, printedToks_run]; rfl
    · rfl
  | d :: ds, i, j, s, out, x, hF, hb, hR, hx => by
    obtain ⟨hd, hl, hds⟩ := hF
    obtain ⟨u, v, rfl, (rfl : u = _), y, z, rfl, hy, hz⟩ := hx
    have hlay : layLine false .expanded i (if d.lines ≤ 1 then .softOrSpace else .empty) =
        [.nl (decide (1 < d.lines)) i] := by
      split
      · next h => rw [decide_eq_false (by omega)]; rfl
      · next h => rw [decide_eq_true (by omega)]; rfl
    rw [hlay]
    obtain ⟨o', t, s', ht, h1, h2, h3, h4, h5, h6, h7⟩ := hR.printNl (decide (1 < d.lines)) i
    obtain ⟨b, r, rfl, hb⟩ := hb
    have hcount : 1 + (decide (1 < d.lines)).toNat = 1 + min (blankLines d.arg.tokens) 1 := by
      rw [← blank_lines]
      unfold ItemDoc.lines
      by_cases h : 1 < linesBefore d.arg.tokens
      · rw [decide_eq_true h]; simp; omega
      · rw [decide_eq_false h]; simp; omega
    have htok : printedToks (printEl s (.nl (decide (1 < d.lines)) i)).1 = [] := by
      rw [← run_single, printedToks_run]; rfl
    by_cases hole : d.arg.isHole = true ∧ d.sep = none
    · obtain ⟨a, ha⟩ : ∃ a, d.arg = .hole a := by
        cases hd : d.arg <;> simp_all [Arg.isHole]
      have hy0 := formed_hole hd ha hy
      rw [hole.2] at hy0
      have hds0 := hl hole.2
      subst hds0 hy0
      cases hz
      have hlines : d.lines = 0 := by
        unfold ItemDoc.lines; rw [ha]; rfl
      rw [hlines] at h1 h2 h6 htok ⊢
      have hR2 : Rest (b :: r ++ (printEl s (.nl false i)).1) (printEl s (.nl false i)).2 := by
        refine .inr ⟨o', t, ?_, ht, ?_⟩
        · exact h1
        · have : (printEl s (.nl false i)).2 = s' := h2
          rw [this]
          exact ⟨h3, h6⟩
      obtain ⟨o2, t2, s2, ht2, k1, k2, k3, k4, k5, k6, k7⟩ := hR2.printNl false j
      have hrun : run s (([El.nl (decide (1 < 0)) i] ++ ((Option.none (α := Token)).toList.map
          (fun t => El.tok (outTok t)) ++ [])) ++ [.nl false j]) =
          ((printEl s (.nl false i)).1 ++ (printEl (printEl s (.nl false i)).2 (.nl false j)).1,
           (printEl (printEl s (.nl false i)).2 (.nl false j)).2) := by
        show run s [El.nl false i, .nl false j] = _
        rw [show [El.nl false i, .nl false j] = [El.nl false i] ++ [.nl false j] from rfl, run_append,
          run_single, run_single]
      rw [hrun]
      dsimp only
      rw [k2, ← List.append_assoc, k1]
      refine ⟨o2 ++ [t2], [], by simp, ?_, ⟨o2, t2, rfl, ht2⟩, ?_, .inl ⟨hole.1, hole.2, rfl, rfl⟩,
        k3, k4, k5, k7⟩
      · rw [List.append_assoc] at k1
        exact begins_of_eq hb ht2 k1
      · rw [List.append_assoc] at k1
        refine toks_of_eq ?_ rfl k1
        rw [printedToks_append, ← run_single, ← run_single, printedToks_run, printedToks_run]
        rfl
    · obtain ⟨hB, hRy⟩ := formed_edges hd hole hy
      have hs' : Fresh i s' := ⟨h3, h4, h5, h7⟩
      obtain ⟨a, q, e1, ha, hRa⟩ := begins_rest_run hB s' (hRy s')
      obtain ⟨a2, rest, e2, hB2, hE2, ht2, hEs, hF2⟩ :=
        entries_run o ds i j (run s' y).2 (a :: q) z hds ⟨a, q, rfl, ha⟩ hRa hz
      have hrun : run s (([El.nl (decide (1 < d.lines)) i] ++ (y ++ z)) ++ [.nl false j]) =
          ((printEl s (.nl (decide (1 < d.lines)) i)).1 ++ ((run s' y).1 ++
            (run (run s' y).2 (z ++ [.nl false j])).1), (run (run s' y).2 (z ++ [.nl false j])).2) := by
        rw [show ([El.nl (decide (1 < d.lines)) i] ++ (y ++ z)) ++ [El.nl false j] =
          [El.nl (decide (1 < d.lines)) i] ++ (y ++ (z ++ [.nl false j])) by simp, run_append,
          run_single, h2]
        generalize z ++ [El.nl false j] = z'
        rw [run_append]
      rw [hrun]
      dsimp only
      refine ⟨o' ++ [t], List.replicate (1 + min (blankLines d.arg.tokens) 1) .rnl ++ indentation i ++
        a2 ++ rest, ?_, begins_of_eq hb ht h1, ⟨o', t, rfl, ht⟩, toks_of_eq htok ?_ h1, ?_, hF2⟩
      · rw [← List.append_assoc, h1, e1, hs'.pending, List.append_assoc (indentation i), e2, hcount]
        simp
      · exact printedToks_replicate _
      · refine .inr ⟨a2, rest, ⟨?_, hE2, ?_⟩, hEs, rfl⟩
        · exact hB2
        · obtain ⟨x', hx', htx⟩ := formed_becomes hd hy
          refine ⟨x', hx', ?_⟩
          rw [ht2, ← htx, ← printedToks_run s' y, e1, printedToks_append,
            (pending_noTok s' : printedToks _ = [])]
          rfl

/-- The entries in an expanded group. -/
theorem entries_all (o : Opts) (d : ItemDoc) (ds : List ItemDoc) (hole : ¬(d.arg.isHole = true ∧ d.sep = none))
    (i j : Nat) (s : PState) (x : List El) (hF : Formeds o (d :: ds)) (hs : Fresh i s)
    (hx : Lays false .expanded i (argsJoin (d :: ds)) x) :
    ∃ a rest, (run s (x ++ [.nl false j])).1 = indentation i ++ a ++ rest ++ [.rnl] ∧
      Entry o d.arg d.sep a ∧ Entries o i (ds.map fun d => (d.arg, d.sep)) rest ∧
      Fresh j (run s (x ++ [.nl false j])).2 := by
  obtain ⟨hd, hl, hds⟩ := hF
  obtain ⟨y, z, rfl, hy, hz⟩ := hx
  obtain ⟨hB, hRy⟩ := formed_edges hd hole hy
  obtain ⟨a, q, e1, ha, hRa⟩ := begins_rest_run hB s (hRy s)
  obtain ⟨a2, rest, e2, hB2, hE2, ht2, hEs, hF2⟩ :=
    entries_run o ds i j (run s y).2 (a :: q) z hds ⟨a, q, rfl, ha⟩ hRa hz
  rw [List.append_assoc]
  generalize z ++ [El.nl false j] = z' at e2 hF2 ⊢
  rw [run_append]
  dsimp only
  refine ⟨a2, rest, ?_, ⟨hB2, hE2, ?_⟩, hEs, hF2⟩
  · rw [e1, hs.pending, List.append_assoc (indentation i), e2]
    simp
  · obtain ⟨x', hx', htx⟩ := formed_becomes hd hy
    refine ⟨x', hx', ?_⟩
    rw [ht2, ← htx, ← printedToks_run s y, e1, printedToks_append,
      (pending_noTok s : printedToks _ = [])]
    rfl

/-! ## Between the delimiters -/

theorem run_tok (s : PState) (t : Tok) : run s [.tok t] = (pendingEls s ++ [.tok t],
    { s with started := true, space := false, ind := 0, emptyLine := false }) := by
  rw [run_single]; exact printText_eq ..

theorem run_toks : ∀ (ts : List Tok) (s : PState), s.started = true → pendingEls s = [] →
    (run s (ts.map .tok)).1 = ts.map .tok ∧ (run s (ts.map .tok)).2.started = true ∧
      pendingEls (run s (ts.map .tok)).2 = []
  | [], s, h1, h2 => ⟨rfl, h1, h2⟩
  | t :: ts, s, h1, h2 => by
    have e : (t :: ts).map El.tok = [.tok t] ++ ts.map .tok := rfl
    rw [e, run_append, run_tok, h2]
    obtain ⟨k1, k2, k3⟩ := run_toks ts
      { s with started := true, space := false, ind := 0, emptyLine := false } rfl rfl
    exact ⟨by dsimp only; rw [k1]; rfl, k2, k3⟩

theorem holes_lays {o : Opts} : ∀ (hs : List ItemDoc), (∀ d ∈ hs, Formed o d ∧ d.isHole = true) →
    ∀ {ns : Bool} {m : Mode} {i : Nat} {x : List El}, Lays ns m i (catAll (hs.map ItemDoc.full)) x →
    x = (hs.flatMap fun d => d.sep.toList.map outTok).map .tok
  | [], _, _, _, _, _, hx => by cases hx; rfl
  | d :: hs, hh, ns, m, i, x, hx => by
    obtain ⟨y, z, rfl, hy, hz⟩ := hx
    obtain ⟨hd, hd'⟩ := hh d (by simp)
    obtain ⟨a, ha⟩ : ∃ a, d.arg = .hole a := by
      unfold ItemDoc.isHole at hd'
      split at hd'
      · next a ha => exact ⟨a, ha⟩
      · cases hd'
    rw [formed_hole hd ha hy, holes_lays hs (fun e he => hh e (by simp [he])) hz]
    simp

/-- Arguments on lines of their own. -/
theorem broken_run {o : Opts} {l r : Token} {hs : List ItemDoc} {d : ItemDoc} {ds : List ItemDoc}
    (hh : ∀ d ∈ hs, Formed o d ∧ d.isHole = true) (hF : Formeds o (d :: ds))
    (hd : d.arg.isHole = false) {m : Mode} {i : Nat} {x : List El}
    (hx : Lays false m i (brokenOut true l hs (d :: ds) r) x) (s : PState) :
    ∃ out, (run s x).1 = pendingEls s ++ out ∧
      BrokenOut o l (hs.flatMap fun d => d.sep.toList) d.arg d.sep (ds.map fun d => (d.arg, d.sep)) r out := by
  obtain ⟨m', hm, hx⟩ := hx
  obtain rfl := hm rfl rfl
  obtain ⟨x1, x2, rfl, (rfl : x1 = _), x3, x4, rfl, h3, x5, x6, rfl, h5, x7, x8, rfl, h7, (rfl : x8 = _)⟩ := hx
  rw [if_neg (by simp), if_neg (by simp)] at h7
  obtain ⟨u1, u2, rfl, ⟨w1, w2, rfl, (rfl : w1 = _), hw⟩, (rfl : u2 = _)⟩ := h7
  have e0 := holes_lays hs hh h3
  subst e0
  have e1 : [El.tok (outTok l)] ++ (List.map El.tok (hs.flatMap fun d => d.sep.toList.map outTok) ++ (x5 ++
      (layLine false .expanded (i + 1) .soft ++ w2 ++ layLine false .expanded i .soft ++ [.tok (outTok r)]))) =
      [El.tok (outTok l)] ++ (List.map El.tok (hs.flatMap fun d => d.sep.toList.map outTok) ++ (x5 ++
      ([.nl false (i + 1)] ++ ((w2 ++ [.nl false i]) ++ [.tok (outTok r)])))) := by
    simp [layLine]
  rw [e1]
  clear e1
  generalize hz : w2 ++ [El.nl false i] = z
  rw [run_append, run_append, run_append, run_append, run_append, run_tok]
  dsimp only
  obtain ⟨k1, k2, k3⟩ := run_toks (hs.flatMap fun d => d.sep.toList.map outTok)
    { s with started := true, space := false, ind := 0, emptyLine := false } rfl rfl
  rw [k1]
  generalize (run { s with started := true, space := false, ind := 0, emptyLine := false }
    (List.map El.tok (hs.flatMap fun d => d.sep.toList.map outTok))).2 = s1 at k2 k3
  have h5' : (run s1 x5).1 = [] ∧ (run s1 x5).2.started = true := by
    unfold maybeSpace at h5
    split at h5
    · cases h5
      rw [run_single]
      exact ⟨rfl, k2⟩
    · cases h5
      exact ⟨rfl, k2⟩
  rw [h5'.1]
  have hst := h5'.2
  generalize (run s1 x5).2 = s2 at hst
  obtain ⟨c, hc1, hc2, hF2⟩ := nl_out s2 hst (i + 1)
  rw [hc1]
  generalize (run s2 [.nl false (i + 1)]).2 = s3 at hF2
  obtain ⟨a, rest, g1, g2, g3, g4⟩ := entries_all o d ds (by simp [hd]) (i + 1) i s3 w2 hF hF2 hw
  rw [hz] at g1 g4
  rw [g1, run_tok]
  dsimp only
  rw [g4.pending]
  refine ⟨_, List.append_assoc _ _ _, c, i, a, rest, ?_, hc2, g2, g3⟩
  simp [List.map_flatMap, Function.comp_def]

/-! ## Lists of entries -/

theorem fmtItems_entries (o : Opts) (vcx : Cx) (dir : Bool) : ∀ (items : Items),
    (fmtItems o vcx dir items).map (fun d => (d.arg, d.sep)) = items.entries
  | .nil => rfl
  | .last x => rfl
  | .cons x s xs => by
    rw [fmtItems, List.map_cons, fmtItems_entries o vcx dir xs]
    rfl

theorem fmtItems_formeds (o : Opts) (vcx : Cx) (dir : Bool) (hv : At vcx {}) : ∀ (items : Items),
    items.ordinary o = true → (∀ a s, (Arg.hole a, s) ∈ items.entries → a = {}) →
    Formeds o (fmtItems o vcx dir items)
  | .nil, _, _ => trivial
  | .last x, ho, hh => by
    rw [fmtItems]
    rw [Items.ordinary] at ho
    refine ⟨⟨⟨vcx, hv, ?_⟩, fun a ha => hh a none ?_⟩, fun _ => rfl, trivial⟩
    · simp only [argDoc, ordinary_dir (ordinary_argAnn ho) dir (.inl rfl)]
      rfl
    · simp only at ha
      simp [Items.entries, ha]
  | .cons x s xs, ho, hh => by
    rw [fmtItems]
    simp only [Items.ordinary, Bool.and_eq_true] at ho
    refine ⟨⟨⟨vcx, hv, ?_⟩, fun a ha => hh a (some s) ?_⟩, (fun h => by cases h),
      fmtItems_formeds o vcx dir hv xs ho.2 (fun a t ht => hh a t ?_)⟩
    · simp only [argDoc, ordinary_dir (ordinary_argAnn ho.1) dir (.inl rfl)]
      rfl
    · simp only at ha
      simp [Items.entries, ha]
    · simp [Items.entries, ht]

end Verif.Format
