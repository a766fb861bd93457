import Verif.Lemmas.FormatJoin
import Verif.Lemmas.FormatParts
import Verif.Lemmas.Prints

/-!
# Layouts that the printer prints
-/

namespace Verif.Format
open Verif.Syntax

theorem typesets_prints : ∀ (d : Doc) (m : PMode) (i : Nat) (x : List El), Typesets m i d x → Prints m i d x
  | .cat a b, m, i, _, ⟨x, y, h, hx, hy⟩ => ⟨x, y, h, typesets_prints a m i x hx, typesets_prints b m i y hy⟩
  | .indent d, m, i, x, h => typesets_prints d m (i + 1) x h
  | .group ex d, m, i, x, ⟨m', h1, _, h2⟩ => ⟨m', h1, typesets_prints d m' i x h2⟩
  | .ifBreaks d, m, i, x, h => by
    rcases h with ⟨h1, h2⟩ | h
    · exact .inl ⟨h1, typesets_prints d m i x h2⟩
    · exact .inr h
  | .noSoft d, m, i, x, ⟨h1, h2⟩ => ⟨typesets_prints d _ i x h1, h2⟩
  | .alt a b, m, i, x, h => by
    rw [Typesets.eq_def] at h
    split at h <;> first | (rename_i heq; cases heq; done) | skip
    · next d b' heq =>
      cases heq
      rcases h with h | h
      · refine .inl ⟨if m = .bare then .bare else .flat, ?_, typesets_prints d _ i _ h⟩
        cases m <;> simp [inGroup]
      · exact .inr (typesets_prints b m i _ h)
    · next a' b' _ heq =>
      cases heq
      rcases h with h | h
      · exact .inl (typesets_prints a m i _ h)
      · exact .inr (typesets_prints b m i _ h)
  | .cell d, m, i, _, ⟨x, h1, h2⟩ => ⟨x, typesets_prints d _ 0 x h1, h2⟩
  | .nil, m, i, x, h => h
  | .tok _, m, i, x, h => h
  | .comment _, m, i, x, h => h
  | .suffix _ _, m, i, x, h => h
  | .space, m, i, x, h => h
  | .pad, m, i, x, h => h
  | .line _, m, i, x, h => h
  | .rnl, m, i, x, h => h
  | .verb _, m, i, x, h => h

/-- Does the mode remove soft line breaks? -/
def PMode.isBare : PMode → Bool
  | .bare => true
  | _ => false

/-- Modes of the model. -/
def PMode.mode : PMode → Mode
  | .expanded => .expanded
  | _ => .flat

theorem typesets_lays {d : Doc} {m : PMode} {i : Nat} {x : List El} (h : Typesets m i d x) :
    Lays m.isBare m.mode i d x := by
  have := prints_lays d m i x (typesets_prints d m i x h)
  cases m
  · exact this.1 rfl
  · exact this.2.1 rfl
  · exact this.2.2 rfl

/-- Variants of a best-fitting element. -/
theorem typesets_alt {a b : Doc} {m : PMode} {i : Nat} {x : List El} (h : Typesets m i (.alt a b) x) :
    (∃ d, a = .group false d ∧ Typesets (if m = .bare then .bare else .flat) i d x) ∨
    Typesets m i a x ∨ Typesets m i b x := by
  rw [Typesets.eq_def] at h
  split at h <;> first | (rename_i heq; cases heq; done) | skip
  · next d b' heq =>
    cases heq
    rcases h with h | h
    · exact .inl ⟨d, rfl, h⟩
    · exact .inr (.inr h)
  · next a' b' _ heq =>
    cases heq
    exact .inr h

/-- Without soft line breaks: so is everything around it, or there are no line breaks at all. -/
def Bared (m m' : PMode) (y : List El) : Prop := m' = .bare → m = .bare ∨ y.any El.isNl = false

/-- A part, which is not a group, in a layout. -/
theorem Always.typesets {P : Doc → Prop} (hP : ∀ ex d, ¬P (.group ex d)) {d : Doc} (h : Always P d)
    {m : PMode} {i : Nat} {x : List El} (hx : Typesets m i d x) :
    ∃ d' m' i' y, P d' ∧ Typesets m' i' d' y ∧ y <:+: x ∧ Bared m m' y := by
  have self : ∀ d, P d → ∀ {m : PMode} {i : Nat} {x : List El}, Typesets m i d x →
      ∃ d' m' i' y, P d' ∧ Typesets m' i' d' y ∧ y <:+: x ∧ Bared m m' y :=
    fun d hd m i x hx => ⟨d, m, i, x, hd, hx, ⟨[], [], by simp⟩, .inl⟩
  have key : ∀ d, Always P d →
      (∀ (m : PMode) (i : Nat) (x : List El), Typesets m i d x →
        ∃ d' m' i' y, P d' ∧ Typesets m' i' d' y ∧ y <:+: x ∧ Bared m m' y) ∧
      (∀ ex d₀, d = .group ex d₀ → ∀ (m : PMode) (i : Nat) (x : List El), Typesets m i d₀ x →
        ∃ d' m' i' y, P d' ∧ Typesets m' i' d' y ∧ y <:+: x ∧ Bared m m' y) := by
    intro d
    induction d with
    | cat a b iha ihb =>
      intro h
      refine ⟨fun m i x hx => ?_, nofun⟩
      rcases h with h | h | h
      · exact self _ h hx
      · obtain ⟨u, v, rfl, hu, -⟩ := hx
        obtain ⟨d', m', i', y, h1, h2, h3, h4⟩ := (iha h).1 _ _ _ hu
        exact ⟨d', m', i', y, h1, h2, infix_left _ h3, h4⟩
      · obtain ⟨u, v, rfl, -, hv⟩ := hx
        obtain ⟨d', m', i', y, h1, h2, h3, h4⟩ := (ihb h).1 _ _ _ hv
        exact ⟨d', m', i', y, h1, h2, infix_right _ h3, h4⟩
    | indent d ih =>
      intro h
      refine ⟨fun m i x hx => ?_, nofun⟩
      rcases h with h | h
      · exact self _ h hx
      · exact (ih h).1 _ _ _ hx
    | group ex d ih =>
      intro h
      have h := h.resolve_left (hP _ _)
      refine ⟨fun m i x hx => ?_, fun ex' d₀ he m i x hx => ?_⟩
      · obtain ⟨m₁, hm, -, hx⟩ := hx
        obtain ⟨d', m', i', y, h1, h2, h3, h4⟩ := (ih h).1 _ _ _ hx
        refine ⟨d', m', i', y, h1, h2, h3, fun hb => (h4 hb).imp (fun h => ?_) (fun h => h)⟩
        cases m <;> first | rfl | exact absurd h (hm.2.1 (by simp))
      · cases he
        exact (ih h).1 _ _ _ hx
    | noSoft d ih =>
      intro h
      refine ⟨fun m i x hx => ?_, nofun⟩
      rcases h with h | h
      · exact self _ h hx
      · obtain ⟨d', m', i', y, h1, h2, h3, h4⟩ := (ih h).1 _ _ _ hx.1
        refine ⟨d', m', i', y, h1, h2, h3, fun _ => .inr ?_⟩
        rw [List.any_eq_false]
        intro a ha
        have := List.all_eq_true.mp hx.2.1 a (h3.subset ha)
        cases a <;> first | (cases this; done) | simp [El.isNl]
    | alt a b iha ihb =>
      intro h
      refine ⟨fun m i x hx => ?_, nofun⟩
      rcases h with h | h
      · exact self _ h hx
      · rcases typesets_alt hx with ⟨d, he, hx⟩ | hx | hx
        · obtain ⟨d', m', i', y, h1, h2, h3, h4⟩ := (iha h.1).2 _ _ he _ _ _ hx
          refine ⟨d', m', i', y, h1, h2, h3, fun hb => (h4 hb).imp (fun h => ?_) (fun h => h)⟩
          cases m <;> simp_all
        · exact (iha h.1).1 _ _ _ hx
        · exact (ihb h.2).1 _ _ _ hx
    | _ => intro h; exact ⟨fun m i x hx => self _ h hx, nofun⟩
  exact (key d h).1 _ _ _ hx

/-! ## Lists of entries -/

/-- The entry ends with a separator or cleanly. -/
def ItemDoc.clean (d : ItemDoc) : Prop := d.sep.isSome = true ∨ d.arg.endsClean = true

theorem ItemDoc.clean.entry {d : ItemDoc} (h : d.clean) (p : Prop) :
    d.sep.isSome = true ∨ d.arg.endsClean = true ∨ p := h.imp id .inl

theorem argsTail_join {o : Opts} {ns : Bool} {m : Mode} {i : Nat} : ∀ (ds : List ItemDoc) (x : List El),
    (∀ d ∈ ds, Shaped o d.arg d.doc) → x.any El.isNl = false → Lays ns m i (argsTail ds) x →
    JoinEls o ds x
  | [], x, _, _, hx => hx
  | d :: ds, x, hs, hn, hx => by
    obtain ⟨u, v, rfl, (rfl : u = _), y, z, rfl, hy, hz⟩ := hx
    obtain ⟨h1, h2⟩ := any_split hn
    have hl : layLine ns m i (if d.lines ≤ 1 then .softOrSpace else .empty) = [.space] := by
      revert h1
      split <;> cases ns <;> cases m <;> simp [layLine, El.isNl]
    rw [hl]
    exact ⟨y, z, rfl, shaped_entry (hs d (by simp)) (.inr (.inr (any_split h2).1)) hy,
      argsTail_join ds z (fun d hd => hs d (by simp [hd])) (any_split h2).2 hz⟩

theorem argsJoin_join {o : Opts} {ns : Bool} {m : Mode} {i : Nat} {d : ItemDoc} {ds : List ItemDoc} {x : List El}
    (hs : ∀ e ∈ d :: ds, Shaped o e.arg e.doc) (hn : x.any El.isNl = false)
    (hx : Lays ns m i (argsJoin (d :: ds)) x) :
    ∃ y z, x = y ++ z ∧ EntryEls o d y ∧ JoinEls o ds z := by
  obtain ⟨y, z, rfl, hy, hz⟩ := hx
  exact ⟨y, z, rfl, shaped_entry (hs d (by simp)) (.inr (.inr (any_split hn).1)) hy,
    argsTail_join ds z (fun e he => hs e (by simp [he])) (any_split hn).2 hz⟩

theorem groupedJoin_join {o : Opts} {ns : Bool} {i : Nat} {ex single : Bool} :
    ∀ (ds : List ItemDoc) (d : ItemDoc) (x : List El),
    (∀ e ∈ d :: ds, Shaped o e.arg e.doc ∧ Shaped o e.arg e.grouped) →
    ((∀ e ∈ d :: ds, e.clean) ∨ x.any El.isNl = false) →
    Lays ns .flat i (groupedJoin ex single (d :: ds)) x →
    ∃ y z, x = y ++ z ∧ EntryEls o d y ∧ JoinEls o ds z
  | [], d, x, hs, hc, hx => by
    have h : ∃ m', Lays ns m' i ((if single then d.doc else d.grouped) ⊹ d.sepDoc) x := by
      rw [groupedJoin] at hx
      split at hx
      · obtain ⟨m', -, hx⟩ := hx
        exact ⟨m', hx⟩
      · exact ⟨_, hx⟩
    obtain ⟨m', hx⟩ := h
    refine ⟨x, [], by simp, shaped_entry (dd := if single then d.doc else d.grouped) ?_
      (hc.elim (fun h => (h d (by simp)).entry _) (fun h => .inr (.inr h))) hx, rfl⟩
    split
    · exact (hs d (by simp)).1
    · exact (hs d (by simp)).2
  | e :: ds, d, x, hs, hc, hx => by
    obtain ⟨y, v, rfl, hy, u, z, rfl, (rfl : u = _), hz⟩ := hx
    have hl : layLine ns .flat i .softOrSpace = [.space] := by simp [layLine]
    rw [hl] at hc ⊢
    obtain ⟨y', z', rfl, h1, h2⟩ := groupedJoin_join ds e z (fun e' he => hs e' (by simp [he]))
      (hc.imp (fun h e' he => h e' (by simp [he])) (fun h => (any_split (any_split h).2).2)) hz
    exact ⟨y, .space :: (y' ++ z'), rfl, shaped_entry (hs d (by simp)).1
      (hc.elim (fun h => (h d (by simp)).entry _) (fun h => .inr (.inr (any_split h).1))) hy, y', z', rfl, h1, h2⟩

theorem testJoin_join {o : Opts} {ns : Bool} {m : Mode} {i : Nat} :
    ∀ (ds : List ItemDoc) (d : ItemDoc) (x : List El),
    (∀ e ∈ d :: ds, Shaped o e.arg e.doc) →
    (∀ e ∈ d :: ds, e.clean) →
    Lays ns m i (testJoin (d :: ds)) x →
    ∃ y z, x = y ++ z ∧ EntryEls o d y ∧ JoinEls o ds z
  | [], d, x, hs, hc, hx =>
    ⟨x, [], by simp, shaped_entry (hs d (by simp)) ((hc d (by simp)).entry _) hx, rfl⟩
  | e :: ds, d, x, hs, hc, hx => by
    obtain ⟨y, v, rfl, hy, u, z, rfl, (rfl : u = _), hz⟩ := hx
    obtain ⟨y', z', rfl, h1, h2⟩ := testJoin_join ds e z (fun e' he => hs e' (by simp [he]))
      (fun e' he => hc e' (by simp [he])) hz
    exact ⟨y, .space :: (y' ++ z'), rfl, shaped_entry (hs d (by simp)) ((hc d (by simp)).entry _) hy,
      y', z', rfl, h1, h2⟩

/-- What `fmtItems` makes of arguments. -/
theorem fmtItems_shaped (o : Opts) (vcx : Cx) (dir : Bool) (hv : At vcx {}) : ∀ (items : Items),
    items.ordinary o = true → (∀ a s, (Arg.hole a, s) ∈ items.entries → a = {}) →
    ∀ d ∈ fmtItems o vcx dir items, Shaped o d.arg d.doc ∧ Shaped o d.arg d.grouped
  | .nil, _, _ => by simp [fmtItems]
  | .last x, ho, hh => by
    intro d hd
    rw [fmtItems, List.mem_singleton] at hd
    subst hd
    have hh' : ∀ a, x = .hole a → a = {} := fun a ha => hh a none (by simp [Items.entries, ha])
    simp only [Items.ordinary] at ho
    simp only [argDoc, ordinary_dir (ordinary_argAnn ho) dir (.inl rfl)]
    exact ⟨⟨⟨vcx, hv, rfl⟩, hh'⟩, ⟨{ vcx with flatParams := true }, ⟨hv.effect, hv.eq, hv.braces, hv.table⟩, rfl⟩, hh'⟩
  | .cons x s xs, ho, hh => by
    intro d hd
    simp only [Items.ordinary, Bool.and_eq_true] at ho
    rw [fmtItems] at hd
    rcases List.mem_cons.mp hd with rfl | hd
    · have hh' : ∀ a, x = .hole a → a = {} := fun a ha => hh a (some s) (by simp [Items.entries, ha])
      simp only [argDoc, ordinary_dir (ordinary_argAnn ho.1) dir (.inl rfl)]
      exact ⟨⟨⟨vcx, hv, rfl⟩, hh'⟩, ⟨{ vcx with flatParams := true }, ⟨hv.effect, hv.eq, hv.braces, hv.table⟩, rfl⟩, hh'⟩
    · exact fmtItems_shaped o vcx dir hv xs ho.2 (fun a t ht => hh a t (by simp [Items.entries, ht])) d hd

/-! ## Argument lists -/

/-- Without line breaks, none are printed. -/
theorem run_oneLine : ∀ (x : List El) (s : PState), x.any El.isNl = false → El.rnl ∉ (run s x).1
  | [], s, _ => by simp [run]
  | a :: x, s, h => by
    rw [List.any_cons, Bool.or_eq_false_iff] at h
    simp only [run, List.mem_append, not_or]
    refine ⟨?_, run_oneLine x _ h.2⟩
    have hp : ∀ e, e ≠ El.rnl → El.rnl ∉ (printText s e).1 := by
      intro e he
      rw [printText_eq]
      simp only [pendingEls, List.mem_append, List.mem_singleton, not_or]
      refine ⟨⟨?_, ?_⟩, fun h => he h.symm⟩
      · split <;> simp
      · split <;> simp
    cases a <;> first | (cases h.1; done) | exact hp _ (by simp) | simp [printEl]

/-- The arguments on lines of their own, or not. -/
theorem brokenOut_typesets {o : Opts} {l r : Token} {ex : Bool} {hs : List ItemDoc} {d : ItemDoc}
    {ds : List ItemDoc} (hH : ∀ e ∈ hs, Formed o e ∧ e.isHole = true)
    (hsep : ∀ e ∈ hs, e.sep.isSome = true) (hF : Formeds o (d :: ds))
    (hS : ∀ e ∈ d :: ds, Shaped o e.arg e.doc) (hd : d.arg.isHole = false)
    (hc : (!ex && hugging r (d :: ds)) = false ∨ d.clean)
    {m : PMode} {i : Nat} {z : List El} (hz : Typesets m i (brokenOut ex l hs (d :: ds) r) z)
    (hb : m = .bare → z.any El.isNl = false) (s : PState) :
    ∃ out, (run s z).1 = pendingEls s ++ out ∧
      (BrokenOut o l (hs.flatMap fun d => d.sep.toList) d.arg d.sep (ds.map fun d => (d.arg, d.sep)) r out ∨
       Joined o l (hs.flatMap fun d => d.sep.toList) d.arg d.sep (ds.map fun d => (d.arg, d.sep)) r out ∧
        ((!ex && hugging r (d :: ds)) = false → oneLine out)) := by
  obtain ⟨m', hm, hfl, hx⟩ := hz
  by_cases hhug : (!ex && hugging r (d :: ds)) = true
  · have hc' := hc.resolve_left (by simp [hhug])
    have hx := typesets_lays hx
    obtain ⟨x1, x2, rfl, (rfl : x1 = _), x3, x4, rfl, h3, x5, x6, rfl, h5, x7, x8, rfl, h7, (rfl : x8 = _)⟩ := hx
    rw [if_neg (by simp), if_pos hhug] at h7
    have hnil : ds = [] := by
      cases ds with
      | nil => rfl
      | cons e ds => simp [hugging] at hhug
    subst hnil
    have e0 := holes_lays hs hH h3
    subst e0
    obtain ⟨y, w, rfl, hy, (rfl : w = _)⟩ := h7
    obtain ⟨out, k1, k2⟩ := joined_run (o := o) (l := l) (r := r) (hs := hs) hF hd (g := x5) (y := y) (z := [])
      (by
        unfold maybeSpace at h5
        split at h5 <;> cases h5 <;> simp_all)
      hsep (shaped_entry (hS d (by simp)) (hc'.entry _) hy) rfl s
    refine ⟨out, ?_, .inr ⟨k2, fun h => absurd (h.symm.trans hhug) (by simp)⟩⟩
    rw [← k1]
    simp
  · have hhug' : (!ex && hugging r (d :: ds)) = false := by simpa using hhug
    by_cases he : m' = .expanded
    · subst he
      have hx : Lays false m.mode i (brokenOut true l hs (d :: ds) r) z := by
        refine ⟨.expanded, fun _ _ => rfl, ?_⟩
        have := typesets_lays hx
        rw [hhug'] at this
        exact this
      obtain ⟨out, k1, k2⟩ := broken_run hH hF hd hx s
      exact ⟨out, k1, .inl k2⟩
    · have hn : z.any El.isNl = false := by
        cases m' with
        | expanded => exact absurd rfl he
        | flat => exact hfl rfl
        | bare =>
          cases m with
          | bare => exact hb rfl
          | expanded => exact absurd rfl (hm.2.1 (by simp))
          | flat => exact absurd rfl (hm.2.1 (by simp))
      have hx := typesets_lays hx
      have hrun := run_oneLine z s hn
      obtain ⟨x1, x2, rfl, (rfl : x1 = _), x3, x4, rfl, h3, x5, x6, rfl, h5, x7, x8, rfl, h7, (rfl : x8 = _)⟩ := hx
      rw [if_neg (by simp), if_neg hhug] at h7
      obtain ⟨u1, u2, rfl, ⟨w1, w2, rfl, (rfl : w1 = _), hw⟩, (rfl : u2 = _)⟩ := h7
      have e0 := holes_lays hs hH h3
      subst e0
      have hn' := (any_split (any_split (any_split (any_split hn).2).2).2).1
      have hl : ∀ j, layLine m'.isBare m'.mode j .soft = [] := by
        intro j
        cases m' <;> first | rfl | exact absurd rfl he
      rw [hl, hl] at hn' hrun ⊢
      obtain ⟨y, w, rfl, hy, hw⟩ := argsJoin_join hS (any_split (any_split hn').1).2 hw
      obtain ⟨out, k1, k2⟩ := joined_run (o := o) (l := l) (r := r) (hs := hs) hF hd (g := x5) (y := y) (z := w)
        (by
          unfold maybeSpace at h5
          split at h5 <;> cases h5 <;> simp_all)
        hsep hy hw s
      have e1 : [El.tok (outTok l)] ++ (List.map El.tok (hs.flatMap fun d => d.sep.toList.map outTok) ++ (x5 ++
          ([] ++ (y ++ w) ++ [] ++ [.tok (outTok r)]))) = [El.tok (outTok l)] ++ (List.map El.tok
          (hs.flatMap fun d => d.sep.toList.map outTok) ++ (x5 ++ (y ++ (w ++ [.tok (outTok r)])))) := by
        simp
      rw [e1] at hrun ⊢
      refine ⟨out, k1, .inr ⟨k2, fun _ h => hrun ?_⟩⟩
      rw [k1]
      exact List.mem_append_right _ h

/-- A variant of the arguments with the last one grouped. -/
theorem grouped_joined {o : Opts} {l r : Token} {ex single : Bool} {hs : List ItemDoc} {d : ItemDoc}
    {ds : List ItemDoc} (hH : ∀ e ∈ hs, Formed o e ∧ e.isHole = true)
    (hsep : ∀ e ∈ hs, e.sep.isSome = true) (hF : Formeds o (d :: ds))
    (hS : ∀ e ∈ d :: ds, Shaped o e.arg e.doc ∧ Shaped o e.arg e.grouped) (hd : d.arg.isHole = false)
    (hc : ∀ e ∈ d :: ds, e.clean)
    {ns : Bool} {i : Nat} {z : List El}
    (hz : Lays ns .flat i ((tokDoc l ⊹ catAll (hs.map ItemDoc.full) ⊹
      maybeSpace (!hs.isEmpty && !(d :: ds).isEmpty)) ⊹ groupedJoin ex single (d :: ds) ⊹ tokDoc r) z) (s : PState) :
    ∃ out, (run s z).1 = pendingEls s ++ out ∧
       Joined o l (hs.flatMap fun d => d.sep.toList) d.arg d.sep (ds.map fun d => (d.arg, d.sep)) r out := by
  obtain ⟨x0, x6, rfl, ⟨x1, x2, rfl, (rfl : x1 = _), x3, x5, rfl, h3, h5⟩, x7, x8, rfl, h7, (rfl : x8 = _)⟩ := hz
  have e0 := holes_lays hs hH h3
  subst e0
  obtain ⟨y, w, rfl, hy, hw⟩ := groupedJoin_join ds d x7 hS (.inl hc) h7
  obtain ⟨out, k1, k2⟩ := joined_run (o := o) (l := l) (r := r) (hs := hs) hF hd (g := x5) (y := y) (z := w)
    (by
      unfold maybeSpace at h5
      split at h5 <;> cases h5 <;> simp_all)
    hsep hy hw s
  refine ⟨out, ?_, k2⟩
  rw [← k1]
  simp

/-- All cases. -/
theorem argsDoc_typesets {o : Opts} {k : CallKind} {aa : Ann} {l r : Token} {items : Items}
    {D hs : List ItemDoc} {d : ItemDoc} {ds : List ItemDoc} (g1 : D.takeWhile ItemDoc.isHole = hs)
    (g2 : D.dropWhile ItemDoc.isHole = d :: ds)
    (hH : ∀ e ∈ hs, Formed o e ∧ e.isHole = true)
    (hsep : ∀ e ∈ hs, e.sep.isSome = true) (hF : Formeds o (d :: ds))
    (hS : ∀ e ∈ d :: ds, Shaped o e.arg e.doc ∧ Shaped o e.arg e.grouped) (hd : d.arg.isHole = false)
    (ht : isTestCall items = true → hs = [])
    (hc : (∀ e ∈ d :: ds, e.clean) ∨ (¬(k = .call ∧ isTestCall items = true) ∧
      groupLast items = false ∧ hugging r (d :: ds) = false))
    {m : PMode} {i : Nat} {z : List El} (hz : Typesets m i (argsDoc o k aa l items D r) z)
    (hb : m = .bare → z.any El.isNl = false) (s : PState) :
    ∃ out, (run s z).1 = pendingEls s ++ out ∧
      (¬(k = .call ∧ isTestCall items = true) ∧
        BrokenOut o l (hs.flatMap fun d => d.sep.toList) d.arg d.sep (ds.map fun d => (d.arg, d.sep)) r out ∨
       Joined o l (hs.flatMap fun d => d.sep.toList) d.arg d.sep (ds.map fun d => (d.arg, d.sep)) r out ∧
        (¬(k = .call ∧ isTestCall items = true) → groupLast items = false → hugging r (d :: ds) = false →
          oneLine out)) := by
  have hD : D ≠ [] := by
    rintro rfl
    cases g2
  have hS' : ∀ e ∈ d :: ds, Shaped o e.arg e.doc := fun e he => (hS e he).1
  have hex : ∀ {m : PMode} {z : List El}, ¬(k = .call ∧ isTestCall items = true) → Typesets m i (brokenOut true l hs (d :: ds) r) z →
      (m = .bare → z.any El.isNl = false) → ∃ out, (run s z).1 = pendingEls s ++ out ∧
      (¬(k = .call ∧ isTestCall items = true) ∧
        BrokenOut o l (hs.flatMap fun d => d.sep.toList) d.arg d.sep (ds.map fun d => (d.arg, d.sep)) r out ∨
       Joined o l (hs.flatMap fun d => d.sep.toList) d.arg d.sep (ds.map fun d => (d.arg, d.sep)) r out ∧
        (¬(k = .call ∧ isTestCall items = true) → groupLast items = false → hugging r (d :: ds) = false →
          oneLine out)) := by
    intro m z h1 hz hb
    obtain ⟨out, k1, k2⟩ := brokenOut_typesets hH hsep hF hS' hd (.inl rfl) hz hb s
    exact ⟨out, k1, k2.imp (fun h => ⟨h1, h⟩) (fun h => ⟨h.1, fun _ _ _ => h.2 rfl⟩)⟩
  unfold argsDoc at hz
  rw [if_neg (by simpa using hD)] at hz
  by_cases h1 : k = .call ∧ isTestCall items = true
  · rw [if_pos h1] at hz
    have hc := hc.resolve_right (fun h => h.1 h1)
    have hnil := ht h1.2
    subst hnil
    have hDd : D = d :: ds := by
      cases D with
      | nil => exact absurd rfl hD
      | cons e D =>
        cases he : e.isHole with
        | true => rw [List.takeWhile_cons, he] at g1; cases g1
        | false => rw [List.dropWhile_cons, he] at g2; exact g2
    subst hDd
    have hx := typesets_lays hz
    obtain ⟨x1, x2, rfl, (rfl : x1 = _), x3, x4, rfl, h3, (rfl : x4 = _)⟩ := hx
    obtain ⟨y, w, rfl, hy, hw⟩ := testJoin_join ds d x3 hS' hc h3
    obtain ⟨out, k1, k2⟩ := joined_run (o := o) (l := l) (r := r) (hs := []) hF hd (g := []) (y := y) (z := w)
      rfl hsep hy hw s
    refine ⟨out, ?_, .inr ⟨k2, fun h => absurd h1 h⟩⟩
    rw [← k1]
    simp
  · rw [if_neg h1] at hz
    dsimp only at hz
    rw [g1, g2] at hz
    split at hz
    · exact hex h1 hz hb
    · split at hz
      · exact hex h1 hz hb
      · split at hz
        · next hg =>
          have hc := hc.resolve_right (fun h => by rw [h.2.1] at hg; cases hg)
          have hjo : ∀ {out : List El}, Joined o l (hs.flatMap fun d => d.sep.toList) d.arg d.sep
              (ds.map fun d => (d.arg, d.sep)) r out → Joined o l (hs.flatMap fun d => d.sep.toList) d.arg d.sep
              (ds.map fun d => (d.arg, d.sep)) r out ∧ (¬(k = .call ∧ isTestCall items = true) →
              groupLast items = false → hugging r (d :: ds) = false → oneLine out) :=
            fun h => ⟨h, fun _ h' => by rw [hg] at h'; cases h'⟩
          have hfl : ∀ {D : Doc} {z : List El}, Typesets (if m = .bare then .bare else .flat) i D z →
              ∃ ns, Lays ns .flat i D z := by
            intro D z h
            refine ⟨m.isBare, ?_⟩
            cases m <;> exact typesets_lays h
          rcases hz with hz | hz | hz
          · obtain ⟨ns, hz⟩ := hfl hz
            obtain ⟨out, k1, k2⟩ := grouped_joined hH hsep hF hS hd hc hz s
            exact ⟨out, k1, .inr (hjo k2)⟩
          · obtain ⟨ns, hz⟩ := hfl hz
            obtain ⟨out, k1, k2⟩ := grouped_joined hH hsep hF hS hd hc hz s
            exact ⟨out, k1, .inr (hjo k2)⟩
          · exact hex h1 hz hb
        · next hg =>
          obtain ⟨out, k1, k2⟩ := brokenOut_typesets hH hsep hF hS' hd
            (hc.elim (fun h => .inr (h d (by simp))) (fun h => .inl (by simp [h.2.2]))) hz hb s
          exact ⟨out, k1, k2.imp (fun h => ⟨h1, h⟩) (fun h => ⟨h.1, fun _ _ hh => h.2 (by simp [hh])⟩)⟩

end Verif.Format
