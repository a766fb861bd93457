import Verif.Lemmas.Table

/-!
# Tables: what is printed
-/

namespace Verif.Format
open Verif.Syntax

/-! ## Characters -/

theorem chars_append (a b : List Byte) : chars (a ++ b) = chars a + chars b := List.countP_append

theorem chars_replicate (n : Nat) (b : Byte) (h : (b &&& 0xC0 != 0x80) = true) :
    chars (List.replicate n b) = n := by
  simp [chars, List.countP_replicate, h]

theorem chars_ascii {bs : List Byte} (h : ∀ b ∈ bs, b < 128) : chars bs = bs.length := by
  refine List.countP_eq_length.mpr fun b hb => ?_
  have h := h b hb
  have : ∀ b : Byte, b < 128 → (b &&& 0xC0 != 0x80) = true := by
    intro b hb
    have hm : ∀ n : Fin 256, n.val < 128 → ((⟨⟨n⟩⟩ : Byte) &&& 0xC0 != 0x80) = true := by decide +kernel
    exact hm b.toBitVec.toFin hb
  exact this b h

theorem render_append (a b : List El) : render (a ++ b) = render a ++ render b := by
  induction a with
  | nil => rfl
  | cons e a ih => cases e <;> simp [render, ih]

theorem render_padEls (n : Nat) : render (padEls n) = List.replicate n 32 := by
  unfold padEls
  split
  · subst_vars; rfl
  · simp [render]

theorem padEls_nil {n : Nat} (h : padEls n = []) : n = 0 := by
  unfold padEls at h
  split at h
  · assumption
  · cases h

theorem padEls_inline (n : Nat) : (padEls n).all El.isInline = true := by
  unfold padEls; split <;> rfl

theorem padEls_toks (n : Nat) : printedToks (padEls n) = [] := by
  unfold padEls; split <;> rfl

/-! ## Text on one line -/

/-- The state after text. -/
def cleared (s : PState) : PState :=
  { s with started := true, space := false, ind := 0, emptyLine := false }

/-- Whatever the state, `els` is printed as `out` after what is pending, and postpones `sf`. -/
def Inks (els out : List El) (sf : List (Option Bool × Nat × List Byte)) : Prop :=
  ∀ s : PState, run s els =
    if out = [] then ([], { s with sfx := s.sfx ++ sf })
    else (pendingEls s ++ out, { cleared s with sfx := s.sfx ++ sf })

theorem Inks.append {a b x y : List El} {p q : List (Option Bool × Nat × List Byte)}
    (ha : Inks a x p) (hb : Inks b y q) : Inks (a ++ b) (x ++ y) (p ++ q) := by
  intro s
  rw [run_append, ha s]
  by_cases hx : x = []
  · simp only [hx, if_true, hb _, List.nil_append]
    split
    · simp
    · simp [cleared, pendingEls]
  · simp only [hx, if_false, hb _]
    split
    · rename_i hy
      simp [hx, hy]
    · simp [hx, cleared, pendingEls]

theorem Inks.nil : Inks [] [] [] := by intro s; simp [run]

theorem Inks.pad (n : Nat) : Inks (padEls n) (padEls n) [] := by
  intro s
  unfold padEls
  split
  · simp [run]
  · simp [run, printEl, printText_eq, cleared]

theorem Inks.trail {x : List El} (h : ∀ e ∈ x, ∃ l k t, e = .suffix l k t) : ∃ sf, Inks x [] sf := by
  induction x with
  | nil => exact ⟨[], Inks.nil⟩
  | cons e x ih =>
    obtain ⟨sf, hx⟩ := ih fun e he => h e (List.mem_cons_of_mem _ he)
    obtain ⟨l, k, t, rfl⟩ := h e (List.mem_cons_self ..)
    have h1 : Inks [.suffix l k t] [] [(l, k, t)] := by
      intro s; simp [run, printEl]
    exact ⟨_, h1.append hx⟩

/-- Without line breaks and comments the printer does not look at postponed comments. -/
theorem run_sfx {x : List El} (h : x.all El.isInline = true) (s : PState)
    (sf : List (Option Bool × Nat × List Byte)) :
    run { s with sfx := sf } x = ((run s x).1, { (run s x).2 with sfx := sf }) ∧
    (run s x).2.sfx = s.sfx := by
  induction x generalizing s with
  | nil => exact ⟨rfl, rfl⟩
  | cons e x ih =>
    simp only [List.all_cons, Bool.and_eq_true] at h
    have ih := ih h.2
    cases e with
    | tok t =>
      simp only [run, printEl, printText_eq]
      have := ih { s with started := true, space := false, ind := 0, emptyLine := false }
      simp only at this
      exact ⟨by rw [this.1]; rfl, this.2⟩
    | space =>
      simp only [run, printEl]
      have := ih (printSpace s)
      exact ⟨by rw [show printSpace { s with sfx := sf } = { printSpace s with sfx := sf } from rfl, this.1],
        this.2⟩
    | blank bs =>
      simp only [run, printEl, printText_eq]
      have := ih { s with started := true, space := false, ind := 0, emptyLine := false }
      simp only at this
      exact ⟨by rw [this.1]; rfl, this.2⟩
    | _ => simp [El.isInline] at h

theorem run_inline {x : List El} (h : x.all El.isInline = true) (s : PState) :
    (run s x).1.all El.isInline = true := by
  induction x generalizing s with
  | nil => rfl
  | cons e x ih =>
    simp only [List.all_cons, Bool.and_eq_true] at h
    have hp : ∀ s : PState, (pendingEls s).all El.isInline = true := by
      intro s; unfold pendingEls; split <;> split <;> rfl
    simp only [run, List.all_append, ih h.2, Bool.and_true]
    cases e with
    | tok t => simp only [printEl, printText_eq, List.all_append, hp]; rfl
    | space => rfl
    | blank bs => simp only [printEl, printText_eq, List.all_append, hp]; rfl
    | _ => simp [El.isInline] at h

theorem emit_inline_run {x : List El} (h : x.all El.isInline = true) : emit x = (run {} x).1 := by
  rw [emit, printEls_run]
  have := (run_sfx h {} []).2
  simp [flush, this, printSuffixes]

theorem emit_inline {x : List El} (h : x.all El.isInline = true) : (emit x).all El.isInline = true := by
  rw [emit_inline_run h]; exact run_inline h _

theorem OneLine.inks {x : List El} (h : OneLine x) : Inks x (emit x) [] := by
  obtain ⟨hi, rfl | ⟨⟨t, r, hr⟩, ⟨t', r', hr'⟩⟩⟩ := h
  · exact Inks.nil
  intro s
  have hne : emit x ≠ [] := by
    intro he
    have := printedToks_emit x
    rw [he, hr] at this
    cases this
  rw [if_neg hne]
  have hend : (run s x).2 = cleared (run s x).2 := by
    rw [hr', run_append]
    rfl
  have hinr : r.all El.isInline = true := by
    rw [hr] at hi
    simpa [El.isInline] using hi
  have h1 : ∀ s : PState, run s x = (pendingEls s ++ (.tok t :: (run (cleared {}) r).1),
      { (run (cleared {}) r).2 with sfx := s.sfx }) := by
    intro s
    rw [hr]
    simp only [run, printEl, printText_eq]
    have := (run_sfx hinr (cleared {}) s.sfx).1
    rw [show ({ s with started := true, space := false, ind := 0, emptyLine := false } : PState)
      = { cleared {} with sfx := s.sfx } from rfl, this]
    simp
  have h2 : emit x = .tok t :: (run (cleared {}) r).1 := by
    rw [emit_inline_run hi, h1]; rfl
  refine Prod.ext ?_ ?_
  · rw [h1, h2]
  · rw [hend]
    have h3 : (run s x).2.sfx = s.sfx := (run_sfx hi s []).2
    show cleared (run s x).2 = { cleared s with sfx := s.sfx ++ [] }
    simp [cleared, h3]

/-! ## One cell -/

/-- Before column `j`. -/
def Ready (i j : Nat) (s : PState) : Prop :=
  if j = 0 then s.started = false ∧ s.space = false ∧ s.ind = i
  else s.started = true ∧ s.space = true ∧ s.ind = 0

/-- What is pending before column `j`. -/
def lead0 (i j : Nat) : Nat := if j = 0 then i else 1

theorem Ready.pending {i j : Nat} {s : PState} (h : Ready i j s) :
    ∃ bs, render (pendingEls s) = bs ∧ AllBlank bs ∧ bs.length = lead0 i j ∧ chars bs = lead0 i j := by
  unfold Ready at h
  unfold lead0
  split at h
  · rename_i hj
    subst hj
    refine ⟨List.replicate i 9, ?_, ?_, by simp,
      by rw [chars_replicate _ _ (by decide)]; rfl⟩
    · unfold pendingEls
      rw [h.2.1, h.2.2]
      cases i <;> simp [render]
    · intro b hb
      exact .inr (List.eq_of_mem_replicate hb)
  · rename_i hj
    refine ⟨[32], ?_, ?_, by simp [hj], by simp only [if_neg hj]; decide⟩
    · unfold pendingEls
      rw [h.2.1, h.2.2]
      rfl
    · intro b hb
      exact .inl (List.mem_singleton.mp hb)

theorem Ready.sfx {i j : Nat} {s : PState} (h : Ready i j s) (sf : List (Option Bool × Nat × List Byte)) :
    Ready i j { s with sfx := sf } := h

theorem Ready.printSpace {i j : Nat} {s : PState} (h : Ready i j s) : printSpace s = s := by
  unfold Ready at h
  unfold Format.printSpace
  cases s
  split at h <;> simp_all

/-- Characters from one separator to the next. -/
def sepAt (cols : List ColumnInfo) (i j : Nat) : Nat :=
  let w := ((cols[j]?).map ColumnInfo.colWidth).getD 0
  lead0 i j + (if w = 0 then 0 else w + 1)

/-- Characters from a separator to the decimal point. -/
def pointAt (cols : List ColumnInfo) (i j : Nat) : Nat :=
  lead0 i j + ((cols[j]?).map ColumnInfo.pointAt).getD 0

/-- A cell without comments before it. -/
def Neat1 (c : Cell) (body core trail : List El) : Prop :=
  body = core ++ trail ∧ (∀ e ∈ trail, ∃ l k t, e = .suffix l k t) ∧
  OneLine core ∧ (core ≠ [] → 0 < c.kind.width) ∧ KindOk core c.kind

theorem toks_only {x : List El} (h : ∀ e ∈ x, ∃ t, e = .tok t) :
    render x = (printedToks x).flatMap Tok.text ∧ emit x = x := by
  constructor
  · induction x with
    | nil => rfl
    | cons e x ih =>
      obtain ⟨t, rfl⟩ := h e (List.mem_cons_self ..)
      simp [render, printedToks, ih fun e he => h e (List.mem_cons_of_mem _ he)]
  · have : ∀ (x : List El) (s : PState), (∀ e ∈ x, ∃ t, e = .tok t) → s.ind = 0 → s.space = false →
        s.sfx = [] → printEls s x = x := by
      intro x
      induction x with
      | nil => intro s _ _ _ h; simp [printEls, flush, h, printSuffixes]
      | cons e x ih =>
        intro s hx h1 h2 h3
        obtain ⟨t, rfl⟩ := hx e (List.mem_cons_self ..)
        simp only [printEls, printEl, printText_eq]
        rw [ih { s with started := true, space := false, ind := 0, emptyLine := false }
          (fun e he => hx e (List.mem_cons_of_mem _ he)) rfl rfl h3]
        simp [pendingEls, h1, h2]
    exact this x {} h rfl rfl rfl

theorem kindOk_width {core : List El} {k : ArgKind} (h : KindOk core k) :
    chars (render (emit core)) = k.width := by
  cases k with
  | other t => rw [show t = _ from h]; rfl
  | numeric i f =>
    obtain ⟨-, h1, h2, p, q, h3, -, h4, h5⟩ := h
    rw [(toks_only h1).2, chars_ascii h2, h3, List.length_append, h4, h5]
    cases f <;> simp [ArgKind.width] <;> omega

theorem printedToks_suffixes {x : List El} (h : ∀ e ∈ x, ∃ l k t, e = .suffix l k t) :
    printedToks x = [] := by
  induction x with
  | nil => rfl
  | cons e x ih =>
    obtain ⟨l, k, t, rfl⟩ := h e (List.mem_cons_self ..)
    exact ih fun e he => h e (List.mem_cons_of_mem _ he)

/-- The requirements of `RowPrinted` on one cell. -/
def SegOk (f g : Nat → Nat) (j : Nat) (c : Cell) (toks : List Tok) (seg : List El) : Prop :=
  printedToks seg = toks ∧ seg.all El.isInline = true ∧
  (c.last = false → chars (render seg) = f j) ∧
  (c.isNumber = true → ∃ a p q b, render seg = a ++ p ++ q ++ b ∧ toks.flatMap Tok.text = p ++ q ∧
    Point p q ∧ AllBlank a ∧ AllBlank b ∧ a.length + p.length = g j)

/-- The instructions of a cell after the padding on its left. -/
def cellRest (ci : ColumnInfo) (c : Cell) (body : List El) : Option (List El) :=
  match c.sep with
  | some s =>
    some (body ++ (if c.last then [] else padEls (ci.padding c.kind).2) ++ [.space, .tok s] ++ [.space])
  | none => if c.last then some (body ++ [.space]) else none

theorem cell_print {cols : List ColumnInfo} {i j : Nat} {s : PState} {c : Cell} {ci : ColumnInfo}
    {body core trail x : List El} (hs : Ready i j s) (hci : cols[j]? = some ci) (hk : Covers ci c.kind)
    (hn : Neat1 c body core trail) (hx : cellRest ci c body = some x) :
    ∃ seg s', run s (padEls (ci.padding c.kind).1 ++ x) = (seg ++ c.sep.toList.map El.tok, s') ∧
      SegOk (sepAt cols i) (pointAt cols i) j c (printedToks core) seg ∧
      (c.sep.isSome = true → Ready i (j + 1) s') ∧
      (trail = [] → s'.sfx = s.sfx) := by
  obtain ⟨rfl, htr, hone, hpos, hok⟩ := hn
  obtain ⟨sf, htrail⟩ := Inks.trail htr
  have hsf : trail = [] → sf = [] := by
    rintro rfl
    have := htrail {}
    simp [run] at this
    exact this
  obtain ⟨bs, hbs, hbl, hlen, hch⟩ := hs.pending
  have hsep : sepAt cols i j = lead0 i j + (if ci.colWidth = 0 then 0 else ci.colWidth + 1) := by
    simp [sepAt, hci]
  have hpt : pointAt cols i j = lead0 i j + ci.pointAt := by
    simp [pointAt, hci]
  have hsum := padding_sum hk
  have hw := kindOk_width hok
  have hpend : (pendingEls s).all El.isInline = true := by
    unfold pendingEls; split <;> split <;> rfl
  have hptoks : printedToks (pendingEls s) = [] := pending_noTok s
  generalize hl : (ci.padding c.kind).1 = l at hsum
  generalize hr : (ci.padding c.kind).2 = r at hsum
  -- the text of the cell with the padding `r'` on its right
  have main : ∀ r', (c.last = false → r' = r) →
      ∃ sf', Inks (padEls l ++ ((core ++ trail) ++ padEls r')) (padEls l ++ (emit core ++ padEls r')) sf' ∧
        (trail = [] → sf' = []) := by
    intro r' _
    have h := (Inks.pad l).append ((hone.inks.append htrail).append (Inks.pad r'))
    simp only [List.append_nil, List.nil_append] at h
    exact ⟨_, h, hsf⟩
  have hnum : ∀ (seg : List El) (z : List El), c.isNumber = true → AllBlank (render z) →
      seg = pendingEls s ++ (padEls l ++ (emit core ++ z)) →
      ∃ a p q b, render seg = a ++ p ++ q ++ b ∧ (printedToks core).flatMap Tok.text = p ++ q ∧
        Point p q ∧ AllBlank a ∧ AllBlank b ∧ a.length + p.length = pointAt cols i j := by
    rintro seg z hc hz rfl
    unfold Cell.isNumber at hc
    split at hc
    · rename_i n f hkind
      rw [hkind] at hok hk hl
      obtain ⟨-, h1, h2, p, q, h3, hP, h4, h5⟩ := hok
      refine ⟨bs ++ List.replicate l 32, p, q, render z, ?_, by rw [← (toks_only h1).1, h3], hP, ?_, hz, ?_⟩
      · simp only [render_append, hbs, render_padEls, (toks_only h1).2, h3, List.append_assoc]
      · intro b hb
        rcases List.mem_append.mp hb with hb | hb
        · exact hbl b hb
        · exact .inl (List.eq_of_mem_replicate hb)
      · have := padding_point hk
        rw [hl] at this
        rw [hpt, List.length_append, List.length_replicate, hlen, h4]
        omega
    · cases hc
  have hne : c.isNumber = true → emit core ≠ [] := by
    intro hc he
    unfold Cell.isNumber at hc
    split at hc
    · rename_i n f hkind
      rw [hkind] at hok
      obtain ⟨h0, h1, -⟩ := hok
      rw [(toks_only h1).2] at he
      exact h0 he
    · cases hc
  have hcore : emit core ≠ [] → 0 < c.kind.width := by
    intro h
    refine hpos fun h' => h ?_
    rw [h']; rfl
  have hin : (emit core).all El.isInline = true := emit_inline hone.1
  unfold cellRest at hx
  split at hx
  · rename_i sp hsp
    cases hx
    obtain ⟨r', hr'1, hr'2⟩ : ∃ r', (if c.last = true then [] else padEls (ci.padding c.kind).2) = padEls r' ∧
        (c.last = false → r' = r) := by
      split
      · rename_i h; exact ⟨0, rfl, fun h' => by rw [h] at h'; cases h'⟩
      · exact ⟨r, by rw [hr], fun _ => rfl⟩
    obtain ⟨sf', hink, hsf'⟩ := main r' hr'2
    rw [hr'1, show padEls l ++ (core ++ trail ++ padEls r' ++ [El.space, El.tok sp] ++ [El.space]) =
      (padEls l ++ ((core ++ trail) ++ padEls r')) ++ [El.space, El.tok sp, El.space] by simp]
    rw [run_append, hink s]
    by_cases hz : padEls l ++ (emit core ++ padEls r') = []
    · rw [if_pos hz]
      simp only [List.append_eq_nil_iff] at hz
      have hl0 := padEls_nil hz.1
      have hr0 := padEls_nil hz.2.2
      have hps : printSpace { s with sfx := s.sfx ++ sf' } = { s with sfx := s.sfx ++ sf' } :=
        (hs.sfx _).printSpace
      refine ⟨pendingEls s, { cleared s with space := true, sfx := s.sfx ++ sf' }, ?_,
        ⟨?_, hpend, ?_, ?_⟩, ?_, ?_⟩
      · simp only [run, printEl, hps, printText_eq, hsp]
        simp [pendingEls, cleared, Format.printSpace]
      · rw [hptoks, ← printedToks_emit, hz.2.1]; rfl
      · intro hlast
        rw [hbs, hch, hsep]
        have hw0 : c.kind.width = 0 := by rw [← hw, hz.2.1]; rfl
        have := hr'2 hlast
        rw [if_pos (by omega)]; omega
      · intro hc; exact absurd hz.2.1 (hne hc)
      · intro _; simp [Ready, cleared]
      · intro ht; simp [cleared, hsf' ht]
    · rw [if_neg hz]
      refine ⟨pendingEls s ++ (padEls l ++ (emit core ++ (padEls r' ++ [.blank [32]]))),
        { cleared s with space := true, sfx := s.sfx ++ sf' }, ?_, ⟨?_, ?_, ?_, ?_⟩, ?_, ?_⟩
      · simp [run, printEl, printText_eq, hsp, pendingEls, cleared, Format.printSpace]
      · simp only [printedToks_append, hptoks, padEls_toks, printedToks_emit]
        simp [printedToks]
      · simp only [List.all_append, hpend, padEls_inline, hin]; rfl
      · intro hlast
        have h0 : 0 < ci.colWidth := by
          rcases Nat.eq_zero_or_pos ci.colWidth with h | h
          · exfalso
            apply hz
            have h1 : l = 0 := by omega
            have h2 : r' = 0 := by rw [hr'2 hlast]; omega
            have h3 : emit core = [] := by
              apply Classical.byContradiction
              intro h'
              have := hcore h'
              omega
            rw [h1, h2, h3]; rfl
          · exact h
        have h1 := hr'2 hlast
        rw [hsep, if_neg (by omega)]
        simp only [render_append, chars_append, hbs, hch, render_padEls, hw]
        rw [chars_replicate _ _ (by decide), chars_replicate _ _ (by decide),
          show chars (render [.blank [32]]) = 1 by decide]
        omega
      · intro hc
        refine hnum _ (padEls r' ++ [.blank [32]]) hc ?_ rfl
        intro b hb
        rw [render_append, render_padEls] at hb
        rcases List.mem_append.mp hb with hb | hb
        · exact .inl (List.eq_of_mem_replicate hb)
        · simp [render] at hb; exact .inl hb
      · intro _; simp [Ready, cleared]
      · intro ht; simp [cleared, hsf' ht]
  · rename_i hsp
    split at hx
    · rename_i hlast
      cases hx
      obtain ⟨sf', hink, hsf'⟩ := main 0 (fun h => by rw [hlast] at h; cases h)
      rw [show padEls l ++ ((core ++ trail) ++ [El.space]) =
        (padEls l ++ ((core ++ trail) ++ padEls 0)) ++ [El.space] by simp [padEls]]
      rw [run_append, hink s]
      by_cases hz : padEls l ++ (emit core ++ padEls 0) = []
      · rw [if_pos hz]
        simp only [List.append_eq_nil_iff] at hz
        refine ⟨[], printSpace { s with sfx := s.sfx ++ sf' }, by simp [run, printEl, hsp], ⟨?_, rfl, ?_, ?_⟩, ?_, ?_⟩
        · rw [← printedToks_emit core, hz.2.1]
        · intro h; rw [hlast] at h; cases h
        · intro hc; exact absurd hz.2.1 (hne hc)
        · intro h; rw [hsp] at h; cases h
        · intro ht; simp [Format.printSpace, hsf' ht]
      · rw [if_neg hz]
        refine ⟨pendingEls s ++ (padEls l ++ (emit core ++ [])), 
          printSpace { cleared s with sfx := s.sfx ++ sf' }, by simp [run, printEl, hsp, padEls], ⟨?_, ?_, ?_, ?_⟩, ?_, ?_⟩
        · simp only [printedToks_append, hptoks, padEls_toks, printedToks_emit]
          simp [printedToks]
        · simp only [List.all_append, hpend, padEls_inline, hin]; rfl
        · intro h; rw [hlast] at h; cases h
        · intro hc
          exact hnum _ [] hc (fun b hb => by cases hb) rfl
        · intro h; rw [hsp] at h; cases h
        · intro ht; simp [Format.printSpace, cleared, hsf' ht]
    · cases hx

/-! ## Rows -/

theorem cellEls_rest (cols : List ColumnInfo) (j : Nat) (c : Cell) (ci : ColumnInfo)
    (h : cols[j]? = some ci) (x : List El) (hx : cellEls cols j c = some x) :
    ∃ y, cellRest ci c c.body = some y ∧ x = padEls (ci.padding c.kind).1 ++ y := by
  unfold cellEls at hx
  rw [h] at hx
  unfold cellRest
  dsimp only at hx
  cases hs : c.sep with
  | some s =>
    rw [hs] at hx
    simp only [Option.some.injEq] at hx
    exact ⟨_, rfl, by rw [← hx]; simp⟩
  | none =>
    rw [hs] at hx
    dsimp only at hx ⊢
    split at hx
    · rename_i hl
      cases hx
      exact ⟨_, if_pos hl, by simp⟩
    · cases hx

theorem cellRest_append {ci : ColumnInfo} {c : Cell} {a b y : List El}
    (h : cellRest ci c (a ++ b) = some y) : ∃ z, cellRest ci c b = some z ∧ y = a ++ z := by
  unfold cellRest at h ⊢
  cases hs : c.sep with
  | some s =>
    rw [hs] at h
    simp only [Option.some.injEq] at h
    exact ⟨_, rfl, by rw [← h]; simp⟩
  | none =>
    rw [hs] at h
    dsimp only at h ⊢
    split at h
    · rename_i hl
      cases h
      exact ⟨_, if_pos hl, by simp⟩
    · cases h

/-- Only the last cell may be the last argument of the call. -/
def Lasts : List Cell → Prop
  | [] => True
  | c :: cs => (cs ≠ [] → c.last = false) ∧ Lasts cs

theorem cellEls_sep {cols : List ColumnInfo} {j : Nat} {c : Cell} {x : List El}
    (h : cellEls cols j c = some x) (hl : c.last = false) : c.sep.isSome = true := by
  unfold cellEls at h
  split at h
  · cases h
  · cases hs : c.sep with
    | some s => rfl
    | none => simp [hs, hl] at h

theorem bare_trail {c : Cell} {core trail : List El} (hb : c.body = core ++ trail)
    (ht : ∀ e ∈ trail, ∃ l k t, e = .suffix l k t) (h : c.bare = true) : trail = [] := by
  cases trail with
  | nil => rfl
  | cons e t =>
    obtain ⟨l, k, t', rfl⟩ := ht e (List.mem_cons_self ..)
    rw [Cell.bare, hb] at h
    simp [El.isInline] at h

/-- The cells of a row from a column other than the first. -/
theorem rowTail_print {cols : List ColumnInfo} {i : Nat} (cs : List Cell) :
    ∀ (j : Nat) (s : PState) (x : List El), Ready i j s →
      (∀ (k : Nat) (c : Cell), cs[k]? = some c → ∃ ci, cols[j + k]? = some ci ∧ Covers ci c.kind) →
      (∀ c ∈ cs, NeatCell i false c) → Lasts cs → rowEls cols j cs = some x →
      ∃ out s', run s x = (out, s') ∧ RowPrinted (sepAt cols i) (pointAt cols i) j cs out ∧
        ((∀ c ∈ cs, c.last = false) → (cs ≠ [] ∨ s.started = true) → s'.started = true) ∧
        (cs.all Cell.bare = true → s'.sfx = s.sfx) := by
  induction cs with
  | nil =>
    intro j s x _ _ _ _ hx
    cases hx
    exact ⟨[], s, rfl, rfl, fun _ h => h.resolve_left (fun h => h rfl), fun _ => rfl⟩
  | cons c cs ih =>
    intro j s x hs hcov hn hl hx
    obtain ⟨ci, hci, hk⟩ := hcov 0 c rfl
    obtain ⟨lead, core, trail, hb, -, hlead, ht, h1, h2, h3⟩ := hn c (List.mem_cons_self ..)
    have hnil : lead = [] := by
      apply Classical.byContradiction
      intro h
      cases (hlead h).1
    subst hnil
    rw [List.nil_append] at hb
    simp only [rowEls] at hx
    split at hx
    · rename_i a b ha hb'
      cases hx
      obtain ⟨y, hy, rfl⟩ := cellEls_rest cols j c ci hci a ha
      obtain ⟨seg, s', hr, ⟨g1, g2, g3, g4⟩, hready, hsfx⟩ :=
        cell_print hs hci hk (⟨rfl, ht, h1, h2, h3⟩ : Neat1 c (core ++ trail) core trail) (by rw [← hb]; exact hy)
      have htk : printedToks core = printedToks c.body := by
        rw [hb, printedToks_append, printedToks_suffixes ht, List.append_nil]
      by_cases hcs : cs = []
      · subst hcs
        cases hb'
        refine ⟨seg ++ c.sep.toList.map El.tok, s', by rw [List.append_nil, hr], ⟨seg, [], by simp, ?_, g2, g3, ?_, rfl⟩,
          ?_, ?_⟩
        · rw [g1, htk]
        · intro hc; rw [Cell.text, ← htk]; exact g4 hc
        · intro hla _
          have hla := hla c (List.mem_cons_self ..)
          have := hready (cellEls_sep ha hla)
          simp [Ready] at this
          exact this.1
        · intro hba
          simp only [List.all_cons, Bool.and_eq_true] at hba
          exact hsfx (bare_trail hb ht hba.1)
      · have hla := hl.1 hcs
        obtain ⟨out, s'', hr', hp, hst, hsf⟩ := ih (j + 1) s' b (hready (cellEls_sep ha hla))
          (fun k c hc => by
            have := hcov (k + 1) c (by simpa using hc)
            rwa [show j + (k + 1) = j + 1 + k by omega] at this)
          (fun c hc => hn c (List.mem_cons_of_mem _ hc)) hl.2 hb'
        refine ⟨seg ++ c.sep.toList.map El.tok ++ out, s'', ?_, ⟨seg, out, rfl, ?_, g2, g3, ?_, hp⟩, ?_, ?_⟩
        · rw [run_append, hr]; simp only [hr']
        · rw [g1, htk]
        · intro hc; rw [Cell.text, ← htk]; exact g4 hc
        · intro h _
          exact hst (fun c hc => h c (List.mem_cons_of_mem _ hc)) (.inl hcs)
        · intro hba
          simp only [List.all_cons, Bool.and_eq_true] at hba
          rw [hsf hba.2]
          exact hsfx (bare_trail hb ht hba.1)
    · cases hx

/-- Comments on lines of their own. -/
theorem lead_print {i : Nat} {x : List El} (h : Lead i x) : ∀ s : PState, Ready i 0 s → s.sfx = [] →
    ∃ out s', run s x = (out, s') ∧ Ready i 0 s' ∧ s'.sfx = [] ∧ printedToks out = [] ∧
      (out = [] ∨ out.getLast? = some .rnl) := by
  induction h with
  | nil => intro s hs hf; exact ⟨[], s, rfl, hs, hf, rfl, .inl rfl⟩
  | cons t e h ih =>
    intro s hs hf
    obtain ⟨out, s', hr, h1, h2, h3, h4⟩ := ih (s := { cleared s with started := false, ind := i, emptyLine := e })
      (by simp [Ready, cleared]) hf
    refine ⟨pendingEls s ++ (.comment t :: (if e then [.rnl, .rnl] else [.rnl]) ++ out), s', ?_, h1, h2, ?_, .inr ?_⟩
    · simp only [run, printEl, printText_eq, flush, hf, printSuffixes, printNl]
      have : ({ started := false, space := false, ind := i, emptyLine := e || (false && !true), sfx := [] } : PState)
        = { cleared s with started := false, ind := i, emptyLine := e } := by
        simp [cleared, hf]
      rw [this, hr]
      cases e <;> simp
    · rw [printedToks_append, show printedToks (pendingEls s) = [] from pending_noTok s]
      cases e <;> simpa [printedToks] using h3
    · rcases h4 with rfl | h4
      · cases e <;> simp
      · rw [List.getLast?_append]
        cases hout : out with
        | nil => rw [hout] at h4; cases h4
        | cons a l =>
          rw [List.cons_append, ← List.singleton_append, List.getLast?_append, List.getLast?_append, ← hout, h4]
          rfl

theorem Ready.started {i : Nat} {s : PState} (h : Ready i 0 s) : s.started = false := by
  simp [Ready] at h; exact h.1

/-- One row. -/
theorem row_print {cols : List ColumnInfo} {i : Nat} {r : List Cell} {s : PState} {x : List El}
    (hs : Ready i 0 s) (hf : s.sfx = []) (hr : r ≠ []) (hcov : RowCovered cols r) (hn : NeatRow i r)
    (hl : Lasts r) (hx : rowEls cols 0 r = some x) :
    ∃ pre line s', run s x = (pre ++ line, s') ∧ RowPrinted (sepAt cols i) (pointAt cols i) 0 r line ∧
      printedToks pre = [] ∧ (pre = [] ∨ pre.getLast? = some .rnl) ∧
      ((∀ c ∈ r, c.last = false) → s'.started = true) ∧
      (r.all Cell.bare = true → pre = [] ∧ s'.sfx = []) := by
  cases r with
  | nil => exact absurd rfl hr
  | cons c cs =>
    obtain ⟨ci, hci, hk⟩ := hcov 0 c rfl
    obtain ⟨⟨lead, core, trail, hb, hL, hlead, ht, h1, h2, h3⟩, hcs⟩ := hn
    simp only [rowEls] at hx
    split at hx
    · rename_i a b ha hb'
      cases hx
      obtain ⟨y, hy, rfl⟩ := cellEls_rest cols 0 c ci hci a ha
      obtain ⟨pre, s1, hpre, hs1, hf1, hp1, hp2⟩ := lead_print hL s hs hf
      have hb2 : c.body = lead ++ (core ++ trail) := by rw [hb]; simp
      rw [hb2] at hy
      obtain ⟨z, hz, rfl⟩ := cellRest_append hy
      obtain ⟨seg, s', hr', ⟨g1, g2, g3, g4⟩, hready, hsfx⟩ :=
        cell_print hs1 hci hk (⟨rfl, ht, h1, h2, h3⟩ : Neat1 c (core ++ trail) core trail) hz
      have htk : printedToks core = printedToks c.body := by
        have hl0 : printedToks lead = [] := by
          clear hpre hy hb2 hb hlead ha
          induction hL with
          | nil => rfl
          | cons t e h ih => simpa [printedToks] using ih
        rw [hb, printedToks_append, printedToks_append, hl0, printedToks_suffixes ht, List.append_nil,
          List.nil_append]
      -- the padding on the left is empty if there are comments
      have hpad : run s (padEls (ci.padding c.kind).1 ++ (lead ++ z)) =
          (pre ++ (seg ++ c.sep.toList.map El.tok), s') := by
        by_cases hle : lead = []
        · subst hle
          cases hpre
          simpa using hr'
        · obtain ⟨-, hnum⟩ := hlead hle
          have h0 : (ci.padding c.kind).1 = 0 := by
            unfold Cell.isNumber at hnum
            split at hnum
            · cases hnum
            · rename_i t hkind
              rw [hkind]; exact padding_other _ _
          rw [h0] at hr' ⊢
          simp only [padEls, if_true, List.nil_append] at hr' ⊢
          rw [run_append, hpre]
          simp only [hr']
      have hbare : c.bare = true → lead = [] ∧ trail = [] := by
        intro h
        have : trail = [] := bare_trail hb ht h
        refine ⟨?_, this⟩
        cases hL with
        | nil => rfl
        | cons t e h' => rw [Cell.bare, hb] at h; simp [El.isInline] at h
      by_cases hcs0 : cs = []
      · subst hcs0
        cases hb'
        refine ⟨pre, seg ++ c.sep.toList.map El.tok, s', by rw [List.append_nil, hpad],
          ⟨seg, [], by simp, by rw [g1, htk], g2, g3, fun hc => by rw [Cell.text, ← htk]; exact g4 hc, rfl⟩,
          hp1, hp2, ?_, ?_⟩
        · intro hla
          have := hready (cellEls_sep ha (hla c (List.mem_cons_self ..)))
          simp [Ready] at this
          exact this.1
        · intro hba
          simp only [List.all_cons, Bool.and_eq_true] at hba
          obtain ⟨rfl, rfl⟩ := hbare hba.1
          cases hpre
          exact ⟨rfl, by rw [hsfx rfl, hf]⟩
      · obtain ⟨out, s'', hr'', hp, hst, hsf⟩ := rowTail_print cs 1 s' b
          (hready (cellEls_sep ha (hl.1 hcs0)))
          (fun k c hc => by
            have := hcov (k + 1) c (by simpa using hc)
            rwa [show k + 1 = 1 + k by omega] at this)
          hcs hl.2 hb'
        refine ⟨pre, seg ++ c.sep.toList.map El.tok ++ out, s'', ?_,
          ⟨seg, out, rfl, by rw [g1, htk], g2, g3, fun hc => by rw [Cell.text, ← htk]; exact g4 hc, hp⟩,
          hp1, hp2, ?_, ?_⟩
        · rw [run_append, hpad]; simp only [hr'']; simp
        · intro h
          exact hst (fun c hc => h c (List.mem_cons_of_mem _ hc)) (.inl hcs0)
        · intro hba
          simp only [List.all_cons, Bool.and_eq_true] at hba
          obtain ⟨rfl, rfl⟩ := hbare hba.1
          cases hpre
          exact ⟨rfl, by rw [hsf hba.2, hsfx rfl, hf]⟩
    · cases hx

/-! ## The table -/

theorem suffixes_started (xs : List (Option Bool × Nat × List Byte)) (s : PState) (h : s.started = true) :
    (printSuffixes s xs).2.started = true := by
  induction xs generalizing s with
  | nil => exact h
  | cons x xs ih =>
    simp only [printSuffixes]
    refine ih _ ?_
    obtain ⟨l, i, t⟩ := x
    cases l <;> rfl

theorem nl_print {s : PState} (h : s.started = true) (e : Bool) (i : Nat) :
    ∃ cm s', printEl s (.nl e i) = (cm ++ List.replicate (1 + e.toNat) .rnl, s') ∧ printedToks cm = [] ∧
      Ready i 0 s' ∧ s'.sfx = [] ∧ (s.sfx = [] → cm = []) := by
  have hst : (flush s).2.started = true := suffixes_started _ _ h
  refine ⟨(flush s).1, (printNl (flush s).2 e i).2, ?_, flush_noTok s, ?_, flush_sfx s, ?_⟩
  · simp only [printEl, printNl, hst]
    cases e <;> simp <;> rfl
  · simp [Ready, printNl]
  · intro h; simp [flush, h, printSuffixes]

theorem Lasts.split {r : List Cell} {rest : List Cell} (h : Lasts (r ++ rest)) :
    Lasts r ∧ Lasts rest ∧ (rest ≠ [] → ∀ c ∈ r, c.last = false) := by
  induction r with
  | nil => exact ⟨trivial, h, fun _ c hc => by cases hc⟩
  | cons c r ih =>
    obtain ⟨h1, h2⟩ := h
    obtain ⟨i1, i2, i3⟩ := ih h2
    refine ⟨⟨fun hr => h1 (by simp [hr]), i1⟩, i2, fun hn d hd => ?_⟩
    rcases List.mem_cons.mp hd with rfl | hd
    · exact h1 (by simp [hn])
    · exact i3 hn d hd

theorem rows_print {cols : List ColumnInfo} {i : Nat} (rs : List (List Cell)) :
    ∀ (r : List Cell) (s : PState) (x y : List El), Ready i 0 s → s.sfx = [] →
      (∀ q ∈ r :: rs, q ≠ [] ∧ RowCovered cols q ∧ NeatRow i q) → Lasts (r :: rs).flatten →
      rowEls cols 0 r = some x → moreRows cols i rs = some y →
      TablePrinted (sepAt cols i) (pointAt cols i) (r :: rs) (run s (x ++ y)).1 := by
  induction rs with
  | nil =>
    intro r s x y hs hf hq hl hx hy
    cases hy
    obtain ⟨q1, q2, q3⟩ := hq r (List.mem_cons_self ..)
    obtain ⟨pre, line, s', hr, hp, h1, h2, h3, h4⟩ :=
      row_print hs hf q1 q2 q3 (by simpa using hl) hx
    refine ⟨pre, line, [], by rw [List.append_nil, hr, List.append_nil], hp, h1, h2, fun h => (h4 h).1, .inl ⟨rfl, rfl⟩⟩
  | cons r' rs ih =>
    intro r s x y hs hf hq hl hx hy
    simp only [moreRows] at hy
    split at hy
    · rename_i a b ha hb
      cases hy
      obtain ⟨q1, q2, q3⟩ := hq r (List.mem_cons_self ..)
      obtain ⟨q1', -, -⟩ := hq r' (by simp)
      rw [List.flatten_cons] at hl
      obtain ⟨l1, l2, l3⟩ := hl.split
      have hne : (r' :: rs).flatten ≠ [] := by
        rw [List.flatten_cons]
        intro h
        exact q1' (List.append_eq_nil_iff.mp h).1
      obtain ⟨pre, line, s', hr, hp, h1, h2, h3, h4⟩ := row_print hs hf q1 q2 q3 l1 hx
      cases r' with
      | nil => exact absurd rfl q1'
      | cons c cs =>
        obtain ⟨cm, s'', hnl, hcm, hs'', hf'', hcm0⟩ :=
          nl_print (h3 (l3 hne)) (1 < c.lines) i
        have hT := ih (c :: cs) s'' a b hs'' hf'' (fun q hq' => hq q (List.mem_cons_of_mem _ hq')) l2 ha hb
        refine ⟨pre, line, _, ?_, hp, h1, h2, fun h => (h4 h).1, .inr ⟨cm, _, rfl, hcm, ?_, hT⟩⟩
        · rw [show x ++ (rowBreak i (c :: cs) ++ a ++ b) = x ++ ([.nl (1 < c.lines) i] ++ (a ++ b)) by
            simp [rowBreak]]
          rw [run_append, hr, run_append, run_single, hnl]
          simp only [emptyBefore]
          by_cases h : 1 < c.lines <;> simp [h]
        · intro h; exact hcm0 (h4 h).2
    · cases hy

theorem table_print {i : Nat} {cs : List Cell} {x : List El} {s : PState} (hs : Ready i 0 s)
    (hf : s.sfx = []) (hl : Lasts cs) (hn : ∀ r ∈ (buildTable cs).rows, NeatRow i r)
    (hx : tableEls i (buildTable cs) = some x) :
    TablePrinted (sepAt (buildTable cs).cols i) (pointAt (buildTable cs).cols i) (buildTable cs).rows
      (run s x).1 := by
  have h1 := buildTable_rows cs
  have h2 := buildTable_covered cs
  have h3 := buildTable_flatten cs
  unfold tableEls at hx
  cases hr : (buildTable cs).rows with
  | nil => rw [hr] at hx; cases hx; rfl
  | cons r rs =>
    rw [hr] at hx h1 h2 h3 hn
    dsimp only at hx
    split at hx
    · rename_i a b ha hb
      cases hx
      exact rows_print rs r s a b hs hf (fun q hq => ⟨(h1 q hq).1, h2 q hq, hn q hq⟩) (by rw [h3]; exact hl) ha hb
    · cases hx

end Verif.Format
