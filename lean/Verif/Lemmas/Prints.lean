import Verif.Spec.Stable

/-!
# Layouts, and what becomes of them when the text is read again
-/

namespace Verif.Format
open Verif.Syntax

/-- All layouts are layouts in the sense of the model. -/
theorem prints_lays : ∀ (d : Doc) (m : PMode) (i : Nat) (x : List El), Prints m i d x →
    (m = .flat → Lays false .flat i d x) ∧ (m = .expanded → Lays false .expanded i d x) ∧
    (m = .bare → Lays true .flat i d x) := by
  intro d
  induction d with
  | cat a b iha ihb =>
    rintro m i _ ⟨x, y, rfl, hx, hy⟩
    have h1 := iha m i x hx
    have h2 := ihb m i y hy
    exact ⟨fun h => ⟨x, y, rfl, h1.1 h, h2.1 h⟩, fun h => ⟨x, y, rfl, h1.2.1 h, h2.2.1 h⟩,
      fun h => ⟨x, y, rfl, h1.2.2 h, h2.2.2 h⟩⟩
  | line l =>
    intro m i x hx
    have hx : x = lineEls m i l := hx
    subst hx
    refine ⟨fun h => ?_, fun h => ?_, fun h => ?_⟩ <;> subst h <;> cases l <;> rfl
  | indent d ih => intro m i x hx; exact ih m (i + 1) x hx
  | group ex d ih =>
    rintro m i x ⟨m', hm, hx⟩
    have h1 := ih m' i x hx
    have key : m ≠ .bare → ∃ m'', (ex = true → m'' = Mode.expanded) ∧ Lays false m'' i d x := by
      intro h
      have h2 := hm.2.1 h
      cases hm' : m' with
      | flat =>
        refine ⟨.flat, fun he => ?_, h1.1 hm'⟩
        have := hm.2.2 h he
        rw [hm'] at this
        cases this
      | expanded => exact ⟨.expanded, fun _ => rfl, h1.2.1 hm'⟩
      | bare => exact absurd hm' h2
    refine ⟨fun h => ?_, fun h => ?_, fun h => ⟨.flat, fun h' => (by cases h'), h1.2.2 (hm.1 h)⟩⟩ <;>
    · obtain ⟨m'', h2, h3⟩ := key (by rw [h]; decide)
      exact ⟨m'', fun _ => h2, h3⟩
  | ifBreaks d ih =>
    rintro m i x (⟨hm, hx⟩ | ⟨hm, rfl⟩)
    · subst hm
      exact ⟨nofun, fun _ => .inl ⟨rfl, (ih _ i x hx).2.1 rfl⟩, nofun⟩
    · exact ⟨fun _ => .inr ⟨rfl, rfl⟩, fun h => absurd h hm, fun _ => .inr ⟨rfl, rfl⟩⟩
  | noSoft d ih =>
    rintro m i x ⟨hx, h1, h2⟩
    have := (ih _ i x hx).2.2 rfl
    exact ⟨fun _ => ⟨_, this, h1, h2⟩, fun _ => ⟨_, this, h1, h2⟩, fun _ => ⟨_, this, h1, h2⟩⟩
  | alt a b iha ihb =>
    rintro m i x (hx | hx)
    · have := iha m i x hx
      exact ⟨fun h => .inl (this.1 h), fun h => .inl (this.2.1 h), fun h => .inl (this.2.2 h)⟩
    · have := ihb m i x hx
      exact ⟨fun h => .inr (this.1 h), fun h => .inr (this.2.1 h), fun h => .inr (this.2.2 h)⟩
  | cell d ih =>
    rintro m i _ ⟨x, hx, h1, rfl⟩
    have := (ih _ 0 x hx).2.2 rfl
    exact ⟨fun _ => ⟨x, _, this, h1, rfl⟩, fun _ => ⟨x, _, this, h1, rfl⟩,
      fun _ => ⟨x, _, this, h1, rfl⟩⟩
  | _ => intro m i x hx; exact ⟨fun _ => hx, fun _ => hx, fun _ => hx⟩

/-! ## Reading tokens in a layout -/

/-- What is known to a reader of a layout about the white space before the next token: the number of line
breaks, whether there is a token on the line, whether there was an empty line. -/
structure W where
  n : Nat
  started : Bool
  empty : Bool

/-- After a token. -/
def W.tok : W := ⟨0, true, false⟩

/-- After a line break, which is printed on lines that are not empty only. -/
def W.nl (s : W) (e : Bool) : W :=
  ⟨s.n + (if s.started then 1 else 0) + (if e && (s.started || !s.empty) then 1 else 0), false,
    e || (s.empty && !s.started)⟩

/-- After a line feed. -/
def W.rnl (s : W) : W := ⟨s.n + 1, false, false⟩

/-- Reads the tokens of a layout in `ts`; each token has to have as many line breaks in front of it as
the layout has before it. The result is what is left. -/
def walk (s : W) : List El → List Token → Option (W × List Token)
  | [], ts => some (s, ts)
  | .tok t :: x, ts =>
    match ts with
    | [] => none
    | u :: us => if outTok u = t ∧ linesBeforeToken u = s.n then walk .tok x us else none
  | .nl e _ :: x, ts => walk (s.nl e) x ts
  | .rnl :: x, ts => walk s.rnl x ts
  | .space :: x, ts => walk s x ts
  | _ :: _, _ => none

theorem walk_append {x y : List El} : ∀ {s : W} {ts : List Token} {s' : W} {ts' : List Token},
    walk s (x ++ y) ts = some (s', ts') →
    ∃ s1 ts1, walk s x ts = some (s1, ts1) ∧ walk s1 y ts1 = some (s', ts') := by
  induction x with
  | nil => intro s ts s' ts' h; exact ⟨s, ts, rfl, h⟩
  | cons e x ih =>
    intro s ts s' ts' h
    cases e with
    | tok t =>
      cases ts with
      | nil => cases h
      | cons u us =>
        simp only [List.cons_append, walk] at h ⊢
        split at h
        · rename_i hu
          rw [if_pos hu]
          exact ih h
        · cases h
    | nl e i => exact ih h
    | rnl => exact ih h
    | space => exact ih h
    | _ => cases h

theorem walk_tok {s s' : W} {t : Tok} {ts ts' : List Token}
    (h : walk s [.tok t] ts = some (s', ts')) :
    ∃ u, ts = u :: ts' ∧ outTok u = t ∧ linesBeforeToken u = s.n ∧ s' = .tok := by
  cases ts with
  | nil => cases h
  | cons u us =>
    simp only [walk] at h
    split at h
    · rename_i hu
      cases h
      exact ⟨u, rfl, hu.1, hu.2, rfl⟩
    · cases h

/-! ## Refinement -/

/-- All layouts of `d'` are layouts of `d`; where soft line breaks have been removed this is asked for
layouts without line breaks only. -/
def Refines (d' d : Doc) : Prop :=
  ∀ m i x, (m = .bare → x.all El.isInline = true) → Prints m i d' x → Prints m i d x

theorem Refines.refl (d : Doc) : Refines d d := fun _ _ _ _ h => h

theorem Refines.trans {a b c : Doc} (h : Refines a b) (h' : Refines b c) : Refines a c :=
  fun m i x hx ha => h' m i x hx (h m i x hx ha)

theorem inline_append {m : PMode} {x y : List El} (h : m = .bare → (x ++ y).all El.isInline = true) :
    (m = .bare → x.all El.isInline = true) ∧ (m = .bare → y.all El.isInline = true) := by
  refine ⟨fun hm => ?_, fun hm => ?_⟩ <;> have := h hm <;> rw [List.all_append] at this <;>
    simp at this ⊢ <;> first | exact this.1 | exact this.2

theorem Refines.cat {a a' b b' : Doc} (ha : Refines a' a) (hb : Refines b' b) :
    Refines (a' ⊹ b') (a ⊹ b) := by
  rintro m i _ hm ⟨x, y, rfl, hx, hy⟩
  have := inline_append hm
  exact ⟨x, y, rfl, ha m i x this.1 hx, hb m i y this.2 hy⟩

theorem Refines.indent {d d' : Doc} (h : Refines d' d) : Refines (.indent d') (.indent d) :=
  fun m i x hm hx => h m (i + 1) x hm hx

theorem Refines.group {d d' : Doc} {ex ex' : Bool} (h : Refines d' d) (he : ex = true → ex' = true) :
    Refines (.group ex' d') (.group ex d) := by
  rintro m i x hm ⟨m', h1, hx⟩
  refine ⟨m', ⟨h1.1, h1.2.1, fun hb he' => h1.2.2 hb (he he')⟩, h m' i x (fun hb => hm ?_) hx⟩
  apply Decidable.byContradiction
  intro hn
  exact h1.2.1 hn hb

theorem Refines.alt {a a' b b' : Doc} (ha : Refines a' a) (hb : Refines b' b) :
    Refines (.alt a' b') (.alt a b) := by
  rintro m i x hm (hx | hx)
  · exact .inl (ha m i x hm hx)
  · exact .inr (hb m i x hm hx)

theorem Refines.left {a b d : Doc} (h : Refines d a) : Refines d (.alt a b) :=
  fun m i x hm hx => .inl (h m i x hm hx)

theorem Refines.right {a b d : Doc} (h : Refines d b) : Refines d (.alt a b) :=
  fun m i x hm hx => .inr (h m i x hm hx)

theorem Refines.noSoft {d d' : Doc} (h : Refines d' d) (hd : d.willBreak = false) :
    Refines (.noSoft d') (.noSoft d) :=
  fun _ i x _ ⟨hx, hi, _⟩ => ⟨h .bare i x (fun _ => hi) hx, hi, hd⟩

theorem Refines.softBlock {d d' : Doc} (h : Refines d' d) : Refines (softBlock d') (softBlock d) :=
  (Refines.cat (.refl _) h).indent.cat (.refl _)

theorem Refines.hardBlock {d d' : Doc} (h : Refines d' d) : Refines (hardBlock d') (hardBlock d) :=
  (Refines.cat (.refl _) h).indent.cat (.refl _)

/-! ## Steps -/

/-- `x` is a layout of `d`, and its tokens are read in `ts`, leaving `ts'`. Where soft line breaks have
been removed, neither the document nor the layout breaks. -/
structure Step (m : PMode) (i : Nat) (d : Doc) (x : List El) (s : W) (ts : List Token) (s' : W)
    (ts' : List Token) : Prop where
  prints : Prints m i d x
  inline : m = .bare → x.all El.isInline = true
  calm : m = .bare → d.willBreak = false
  walks : walk s x ts = some (s', ts')

/-- The layout `x` of `d` is a layout of `d'`, which has no other layouts than `d`. -/
structure Again (m : PMode) (i : Nat) (d d' : Doc) (x : List El) : Prop where
  prints : Prints m i d' x
  calm : m = .bare → d'.willBreak = false
  refines : Refines d' d

variable {m : PMode} {i : Nat} {s s' : W} {ts ts' : List Token} {x y : List El} {a b d d' : Doc}

theorem Step.cat (h : Step m i (a ⊹ b) x s ts s' ts') : ∃ x1 x2 s1 ts1, x = x1 ++ x2 ∧
    Step m i a x1 s ts s1 ts1 ∧ Step m i b x2 s1 ts1 s' ts' := by
  obtain ⟨⟨x1, x2, rfl, h1, h2⟩, hi, hc, hw⟩ := h
  obtain ⟨g1, ts1, hw1, hw2⟩ := walk_append hw
  have hi' := inline_append hi
  refine ⟨x1, x2, g1, ts1, rfl, ⟨h1, hi'.1, fun hm => ?_, hw1⟩, ⟨h2, hi'.2, fun hm => ?_, hw2⟩⟩ <;>
    have := hc hm <;> simp only [Doc.willBreak, Bool.or_eq_false_iff] at this
  · exact this.1
  · exact this.2

theorem Step.nil (h : Step m i .nil x s ts s' ts') : x = [] ∧ s' = s ∧ ts' = ts := by
  have h1 : x = [] := h.prints
  have h2 := h.walks
  subst h1
  cases h2
  exact ⟨rfl, rfl, rfl⟩

theorem Step.space (h : Step m i .space x s ts s' ts') : x = [.space] ∧ s' = s ∧ ts' = ts := by
  have h1 : x = [.space] := h.prints
  have h2 := h.walks
  subst h1
  cases h2
  exact ⟨rfl, rfl, rfl⟩

theorem Step.maybeSpace {c : Bool} (h : Step m i (maybeSpace c) x s ts s' ts') : s' = s ∧ ts' = ts := by
  cases c with
  | true => exact (Step.space h).2
  | false => exact (Step.nil h).2

theorem Step.tok {t : Tok} (h : Step m i (.tok t) x s ts s' ts') :
    ∃ u, ts = u :: ts' ∧ outTok u = t ∧ linesBeforeToken u = s.n ∧ s' = .tok ∧ x = [.tok t] := by
  have h1 : x = [.tok t] := h.prints
  have h2 := h.walks
  subst h1
  obtain ⟨u, e1, e2, e3, e4⟩ := walk_tok h2
  exact ⟨u, e1, e2, e3, e4, rfl⟩

theorem Step.tokDoc {t : Token} (h : Step m i (tokDoc t) x s ts s' ts') :
    ∃ u, ts = u :: ts' ∧ outTok u = outTok t ∧ linesBeforeToken u = s.n ∧ s' = .tok ∧
      Again m i (tokDoc t) (tokDoc u) x := by
  obtain ⟨u, e1, e2, e3, e4, e5⟩ := Step.tok h
  refine ⟨u, e1, e2, e3, e4, ?_⟩
  have : Format.tokDoc u = Format.tokDoc t := by rw [Format.tokDoc, e2]; rfl
  rw [this]
  exact ⟨h.prints, h.calm, .refl _⟩

theorem Step.indent (h : Step m i (.indent d) x s ts s' ts') : Step m (i + 1) d x s ts s' ts' :=
  ⟨h.prints, h.inline, h.calm, h.walks⟩

theorem inGroup.bare {m m' : PMode} {ex : Bool} (hm : inGroup m ex m') (hb : m' = .bare) : m = .bare := by
  apply Decidable.byContradiction
  intro hn
  exact hm.2.1 hn hb

theorem Step.group {ex : Bool} (h : Step m i (.group ex d) x s ts s' ts') :
    ∃ m', inGroup m ex m' ∧ (m = .bare → ex = false) ∧ Step m' i d x s ts s' ts' := by
  obtain ⟨⟨m', hm, hx⟩, hi, hc, hw⟩ := h
  refine ⟨m', hm, fun h => ?_, hx, fun h => hi (hm.bare h), fun h => ?_, hw⟩ <;>
    have := hc (by first | exact hm.bare h | exact h) <;>
    simp only [Doc.willBreak, Bool.or_eq_false_iff] at this
  · exact this.1
  · exact this.2

/-- After a line break element. -/
def W.line (m : PMode) (s : W) : Line → W
  | .hard => s.nl false
  | .empty => s.nl true
  | .soft | .softOrSpace => if m = .expanded then s.nl false else s

theorem Step.line {l : Line} (h : Step m i (.line l) x s ts s' ts') :
    s' = s.line m l ∧ ts' = ts ∧ (m = .bare → l ≠ .hard ∧ l ≠ .empty) := by
  have h1 : x = lineEls m i l := h.prints
  have h2 := h.walks
  have h3 := h.calm
  subst h1
  refine ⟨?_, ?_, ?_⟩
  · cases l <;> simp only [lineEls, W.line] at h2 ⊢ <;> (try split at h2) <;> cases h2 <;>
      (try rfl) <;> simp_all
  · cases l <;> simp only [lineEls] at h2 <;> (try split at h2) <;> cases h2 <;> rfl
  · intro hm
    have := h3 hm
    cases l <;> simp_all [Doc.willBreak]

/-! ## Rebuilding -/

theorem Again.refl (h : Step m i d x s ts s' ts') : Again m i d d x :=
  ⟨h.prints, h.calm, .refl _⟩

theorem Again.of_eq (h : Step m i d x s ts s' ts') (he : d' = d) : Again m i d d' x := by
  subst he; exact .refl h

theorem Again.cat {a' b' : Doc} (ha : Again m i a a' x) (hb : Again m i b b' y) :
    Again m i (a ⊹ b) (a' ⊹ b') (x ++ y) := by
  refine ⟨⟨x, y, rfl, ha.prints, hb.prints⟩, fun hm => ?_, ha.refines.cat hb.refines⟩
  simp only [Doc.willBreak, Bool.or_eq_false_iff]
  exact ⟨ha.calm hm, hb.calm hm⟩

theorem Again.indent (h : Again m (i + 1) d d' x) : Again m i (.indent d) (.indent d') x :=
  ⟨h.prints, h.calm, h.refines.indent⟩

theorem Again.group {m' : PMode} {ex ex' : Bool} (h : Again m' i d d' x) (hm : inGroup m ex' m')
    (hb : m = .bare → ex' = false) (he : ex = true → ex' = true) :
    Again m i (.group ex d) (.group ex' d') x := by
  refine ⟨⟨m', hm, h.prints⟩, fun hm' => ?_, h.refines.group he⟩
  simp only [Doc.willBreak, Bool.or_eq_false_iff]
  exact ⟨hb hm', h.calm (hm.1 hm')⟩

/-! ## Documents that print the same in flat and in expanded groups -/

/-- Soft line breaks and conditional content are inside groups. -/
def Doc.fixed : Doc → Bool
  | .cat a b => a.fixed && b.fixed
  | .line l => l == .hard || l == .empty
  | .indent d => d.fixed
  | .ifBreaks _ => false
  | .alt a b => a.fixed && b.fixed
  | _ => true

theorem Doc.fixed.prints {d : Doc} (h : d.fixed = true) : ∀ {m m' : PMode} {i : Nat} {x : List El},
    m ≠ .bare → m' ≠ .bare → Prints m i d x → Prints m' i d x := by
  induction d with
  | cat a b iha ihb =>
    intro m m' i x hm hm' hx
    simp only [Doc.fixed, Bool.and_eq_true] at h
    obtain ⟨x1, x2, rfl, h1, h2⟩ := hx
    exact ⟨x1, x2, rfl, iha h.1 hm hm' h1, ihb h.2 hm hm' h2⟩
  | line l =>
    intro m m' i x hm hm' hx
    cases l <;> simp_all [Doc.fixed, Prints, lineEls]
  | indent d ih => intro m m' i x hm hm' hx; exact ih h hm hm' hx
  | ifBreaks d ih => simp [Doc.fixed] at h
  | alt a b iha ihb =>
    intro m m' i x hm hm' hx
    simp only [Doc.fixed, Bool.and_eq_true] at h
    rcases hx with hx | hx
    · exact .inl (iha h.1 hm hm' hx)
    · exact .inr (ihb h.2 hm hm' hx)
  | group ex d ih =>
    intro m m' i x hm hm' ⟨m1, h1, hx⟩
    exact ⟨m1, ⟨fun hb => absurd hb hm', fun _ => h1.2.1 hm, fun _ => h1.2.2 hm⟩, hx⟩
  | noSoft d ih => intro m m' i x hm hm' hx; exact hx
  | cell d ih => intro m m' i x hm hm' hx; exact hx
  | _ => intro m m' i x hm hm' hx; exact hx

/-- Refinement of the content of a group that was printed in mode `m`: if it was expanded, what is
printed of `d'` in any mode is a layout of `d` in an expanded group. -/
def RefIn (m : PMode) (d' d : Doc) : Prop :=
  if m = .expanded then
    (∀ m i x, m ≠ .bare → Prints m i d' x → Prints .expanded i d x) ∧
    (∀ i x, x.all El.isInline = true → Prints .bare i d' x → Prints .bare i d x)
  else Refines d' d

theorem Refines.ref (h : Refines d' d) (hf : d.fixed = true) : RefIn m d' d := by
  unfold RefIn
  split
  · exact ⟨fun m i x hm hx => Doc.fixed.prints hf hm (by decide) (h m i x (fun hb => absurd hb hm) hx),
      fun i x hi hx => h _ i x (fun _ => hi) hx⟩
  · exact h

theorem RefIn.cat {a' b' : Doc} (ha : RefIn m a' a) (hb : RefIn m b' b) : RefIn m (a' ⊹ b') (a ⊹ b) := by
  unfold RefIn at *
  split at ha
  · rename_i hm
    rw [if_pos hm] at hb ⊢
    refine ⟨?_, ?_⟩
    · rintro m i _ hn ⟨x, y, rfl, hx, hy⟩
      exact ⟨x, y, rfl, ha.1 m i x hn hx, hb.1 m i y hn hy⟩
    · rintro i _ hi ⟨x, y, rfl, hx, hy⟩
      rw [List.all_append, Bool.and_eq_true] at hi
      exact ⟨x, y, rfl, ha.2 i x hi.1 hx, hb.2 i y hi.2 hy⟩
  · rename_i hm
    rw [if_neg hm] at hb ⊢
    exact ha.cat hb

theorem RefIn.group (h : RefIn m d' d) : Refines (.group false d') (.group false d) := by
  unfold RefIn at h
  split at h
  · rintro m i x hi ⟨m1, h1, hx⟩
    by_cases hb : m1 = .bare
    · subst hb
      exact ⟨.bare, h1, h.2 i x (hi (h1.bare rfl)) hx⟩
    · refine ⟨.expanded, ⟨fun h2 => absurd (h1.1 h2) hb, fun _ => by decide, fun _ _ => rfl⟩,
        h.1 m1 i x hb hx⟩
  · exact h.group (fun h => h)

/-- As `Again`, in a group printed in mode `m`. -/
structure AgainIn (m : PMode) (i : Nat) (d d' : Doc) (x : List El) : Prop where
  prints : Prints m i d' x
  calm : m = .bare → d'.willBreak = false
  ref : RefIn m d' d

theorem Again.within (h : Again m i d d' x) (hf : d.fixed = true) : AgainIn m i d d' x :=
  ⟨h.prints, h.calm, h.refines.ref hf⟩

theorem AgainIn.cat {a' b' : Doc} (ha : AgainIn m i a a' x) (hb : AgainIn m i b b' y) :
    AgainIn m i (a ⊹ b) (a' ⊹ b') (x ++ y) := by
  refine ⟨⟨x, y, rfl, ha.prints, hb.prints⟩, fun hm => ?_, ha.ref.cat hb.ref⟩
  simp only [Doc.willBreak, Bool.or_eq_false_iff]
  exact ⟨ha.calm hm, hb.calm hm⟩

theorem AgainIn.group {m' : PMode} (h : AgainIn m' i d d' x) (hm : inGroup m false m') :
    Again m i (.group false d) (.group false d') x :=
  ⟨⟨m', hm, h.prints⟩, fun hm' => by simpa [Doc.willBreak] using h.calm (hm.1 hm'), h.ref.group⟩

end Verif.Format
