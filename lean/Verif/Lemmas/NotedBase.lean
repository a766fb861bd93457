import Verif.Lemmas.StableFile

/-!
# Comments before statements, printed like statements

A comment that leads a statement is printed like a statement of its own. So a program whose comments all lead
statements is compared with the program in which they have been replaced by statements: names that are longer
than all tokens of the program.
-/

namespace Verif.Format
open Verif.Syntax

variable {o : Opts} {N : Nat} {q : Prop} {m : PMode} {i : Nat} {x y : List El} {a b d d' d0 d0' : Doc}

/-! ## Names that stand for comments -/

/-- A token that stands for a comment. -/
def Tok.isNote (N : Nat) (t : Tok) : Bool := decide (N < t.text.length)

/-- The text of the token that stands for a comment. -/
def noteText (N : Nat) (c : List Byte) : List Byte := List.replicate (N + 1) 97 ++ c

def noteTok (N : Nat) (c : List Byte) : Tok := ⟨.ident, noteText N c⟩

/-- The comment is printed. -/
def El.tell (N : Nat) : El → El
  | .tok t => if t.isNote N then .comment (t.text.drop (N + 1)) else .tok t
  | e => e

theorem noteTok_isNote (c : List Byte) : (noteTok N c).isNote N = true := by
  simp [noteTok, noteText, Tok.isNote]
  omega

theorem tell_note (c : List Byte) : (El.tok (noteTok N c)).tell N = .comment c := by
  simp only [El.tell, noteTok_isNote, if_true]
  simp [noteTok, noteText]

theorem tell_short {t : Tok} (h : t.isNote N = false) : (El.tok t).tell N = .tok t := by
  simp [El.tell, h]

/-- An element that stands for a comment. -/
def El.isNote (N : Nat) : El → Bool
  | .tok t => t.isNote N
  | _ => false

/-- The end of a line. -/
def El.isBreak : El → Bool
  | .nl .. | .rnl => true
  | _ => false

/-- Each of these tokens is on a line of its own and followed by a token; `b`: at the start of a line. -/
def Ruled (N : Nat) (b : Bool) : List El → Prop
  | [] => True
  | e :: x => (e.isNote N = true → b = true ∧ ∃ k j u y, x = .nl k j :: .tok u :: y) ∧ Ruled N e.isBreak x

theorem Ruled.mono {b : Bool} (h : Ruled N false x) : Ruled N b x := by
  cases x with
  | nil => trivial
  | cons e x => exact ⟨fun he => absurd (h.1 he).1 (by decide), h.2⟩

theorem Ruled.append {b : Bool} (hx : Ruled N b x) (hy : Ruled N false y) : Ruled N b (x ++ y) := by
  induction x generalizing b with
  | nil => exact hy.mono
  | cons e x ih =>
    refine ⟨fun h => ?_, ih hx.2⟩
    obtain ⟨hb, k, j, u, z, rfl⟩ := hx.1 h
    exact ⟨hb, k, j, u, z ++ y, rfl⟩

theorem ruled_none {b : Bool} (h : ∀ e ∈ x, e.isNote N = false) : Ruled N b x := by
  induction x generalizing b with
  | nil => trivial
  | cons e x ih =>
    refine ⟨fun h' => ?_, ih (fun e he => h e (by simp [he]))⟩
    rw [h e (by simp)] at h'
    cases h'

theorem tell_none (h : ∀ e ∈ x, e.isNote N = false) : x.map (El.tell N) = x := by
  induction x with
  | nil => rfl
  | cons e x ih =>
    rw [List.map_cons, ih (fun e he => h e (by simp [he]))]
    have := h e (by simp)
    cases e <;> simp_all [El.tell, El.isNote]

/-! ## Documents that print alike -/

/-- The layouts of `d` are those of `d0`, with comments for the tokens that stand for them; `q`: there are none;
`l`: after the start of a line. -/
structure SimL (N : Nat) (l : Bool) (q : Prop) (d d0 : Doc) : Prop where
  fwd : ∀ m i x, Prints m i d x → ∃ x0, Prints m i d0 x0 ∧ x = x0.map (El.tell N)
  bwd : ∀ m i x0, Prints m i d0 x0 → Prints m i d (x0.map (El.tell N))
  brk : d.willBreak = d0.willBreak
  tame : ∀ m i x0, Prints m i d0 x0 → Ruled N l x0
  mute : q → ∀ m i x0, Prints m i d0 x0 → ∀ e ∈ x0, e.isNote N = false

/-- Anywhere. -/
abbrev Sim (N : Nat) (q : Prop) (d d0 : Doc) : Prop := SimL N false q d d0

theorem Sim.mono {l : Bool} (h : Sim N q d d0) : SimL N l q d d0 where
  fwd := h.fwd
  bwd := h.bwd
  brk := h.brk
  tame m i x hx := (h.tame m i x hx).mono
  mute := h.mute

theorem sim_refl (h : ∀ m i x, Prints m i d x → ∀ e ∈ x, e.isNote N = false) : Sim N q d d where
  fwd m i x hx := ⟨x, hx, (tell_none (h m i x hx)).symm⟩
  bwd m i x hx := by rw [tell_none (h m i x hx)]; exact hx
  brk := rfl
  tame m i x hx := ruled_none (h m i x hx)
  mute _ := h

theorem sim_nil : Sim N q .nil .nil := sim_refl (by
  intro m i x h e he
  have h : x = [] := h
  subst h
  cases he)

theorem sim_space : Sim N q .space .space := sim_refl (by
  intro m i x h e he
  have h : x = [.space] := h
  subst h
  cases List.mem_singleton.1 he
  rfl)

theorem sim_rnl : Sim N q .rnl .rnl := sim_refl (by
  intro m i x h e he
  have h : x = [.rnl] := h
  subst h
  cases List.mem_singleton.1 he
  rfl)

theorem sim_line (l : Line) : Sim N q (.line l) (.line l) := sim_refl (by
  intro m i x h e he
  have h : x = lineEls m i l := h
  subst h
  unfold lineEls at he
  split at he
  · cases List.mem_singleton.1 he; rfl
  · cases List.mem_singleton.1 he; rfl
  · split at he
    · cases List.mem_singleton.1 he; rfl
    · cases he
  · split at he <;> (cases List.mem_singleton.1 he; rfl))

theorem sim_tok' {t : Tok} (h : t.isNote N = false) : Sim N q (.tok t) (.tok t) := sim_refl (by
  intro m i x hx e he
  have hx : x = [.tok t] := hx
  subst hx
  cases List.mem_singleton.1 he
  exact h)

theorem SimL.cat {l : Bool} (h1 : SimL N l q a d0) (h2 : Sim N q b d0') : SimL N l q (a ⊹ b) (d0 ⊹ d0') where
  fwd := by
    rintro m i x ⟨y, z, rfl, hy, hz⟩
    obtain ⟨y0, hy0, rfl⟩ := h1.fwd m i y hy
    obtain ⟨z0, hz0, rfl⟩ := h2.fwd m i z hz
    exact ⟨y0 ++ z0, ⟨y0, z0, rfl, hy0, hz0⟩, by simp⟩
  bwd := by
    rintro m i x ⟨y, z, rfl, hy, hz⟩
    exact ⟨_, _, by simp, h1.bwd m i y hy, h2.bwd m i z hz⟩
  brk := by simp only [Doc.willBreak, h1.brk, h2.brk]
  tame := by
    rintro m i x ⟨y, z, rfl, hy, hz⟩
    exact (h1.tame m i y hy).append (h2.tame m i z hz)
  mute := by
    rintro hq m i x ⟨y, z, rfl, hy, hz⟩ e he
    rcases List.mem_append.1 he with he | he
    · exact h1.mute hq m i y hy e he
    · exact h2.mute hq m i z hz e he

theorem Sim.cat (h1 : Sim N q a d0) (h2 : Sim N q b d0') : Sim N q (a ⊹ b) (d0 ⊹ d0') := SimL.cat h1 h2

/-- After the end of a line. -/
theorem SimL.after {l : Bool} (h1 : Sim N q a d0) (h2 : SimL N l q b d0')
    (hb : l = true → ∀ m i x, Prints m i d0 x → x ≠ [] ∧ ∀ e ∈ x, e.isBreak = true) : Sim N q (a ⊹ b) (d0 ⊹ d0') where
  fwd := by
    rintro m i x ⟨y, z, rfl, hy, hz⟩
    obtain ⟨y0, hy0, rfl⟩ := h1.fwd m i y hy
    obtain ⟨z0, hz0, rfl⟩ := h2.fwd m i z hz
    exact ⟨y0 ++ z0, ⟨y0, z0, rfl, hy0, hz0⟩, by simp⟩
  bwd := by
    rintro m i x ⟨y, z, rfl, hy, hz⟩
    exact ⟨_, _, by simp, h1.bwd m i y hy, h2.bwd m i z hz⟩
  brk := by simp only [Doc.willBreak, h1.brk, h2.brk]
  tame := by
    rintro m i x ⟨y, z, rfl, hy, hz⟩
    have h3 := h2.tame m i z hz
    have h4 := h1.tame m i y hy
    cases l with
    | false => exact h4.append h3
    | true =>
      obtain ⟨h5, h6⟩ := hb rfl m i y hy
      clear hy h4
      have key : ∀ (b : Bool) (y : List El), (y = [] → b = true) → (∀ e ∈ y, e.isBreak = true) → Ruled N b (y ++ z) := by
        intro b y
        induction y generalizing b with
        | nil => intro h _; rw [h rfl]; exact h3
        | cons e y ih =>
          intro _ h
          refine ⟨fun h7 => ?_, ih _ (fun _ => h e (by simp)) (fun e he => h e (by simp [he]))⟩
          have := h e (by simp)
          cases e <;> simp_all [El.isNote, El.isBreak]
      exact key false y (fun h => absurd h h5) h6
  mute := by
    rintro hq m i x ⟨y, z, rfl, hy, hz⟩ e he
    rcases List.mem_append.1 he with he | he
    · exact h1.mute hq m i y hy e he
    · exact h2.mute hq m i z hz e he

theorem Sim.indent (h : Sim N q d d0) : Sim N q (.indent d) (.indent d0) where
  fwd m i x hx := h.fwd m (i + 1) x hx
  bwd m i x hx := h.bwd m (i + 1) x hx
  brk := h.brk
  tame m i x hx := h.tame m (i + 1) x hx
  mute hq m i x hx := h.mute hq m (i + 1) x hx

theorem Sim.group {ex : Bool} (h : Sim N q d d0) : Sim N q (.group ex d) (.group ex d0) where
  fwd := by
    rintro m i x ⟨m', hm, hx⟩
    obtain ⟨x0, h0, rfl⟩ := h.fwd m' i x hx
    exact ⟨x0, ⟨m', hm, h0⟩, rfl⟩
  bwd := by
    rintro m i x ⟨m', hm, hx⟩
    exact ⟨m', hm, h.bwd m' i x hx⟩
  brk := by simp only [Doc.willBreak, h.brk]
  tame := by
    rintro m i x ⟨m', hm, hx⟩
    exact h.tame m' i x hx
  mute := by
    rintro hq m i x ⟨m', hm, hx⟩
    exact h.mute hq m' i x hx

theorem Sim.ifBreaks (h : Sim N q d d0) : Sim N q (.ifBreaks d) (.ifBreaks d0) where
  fwd := by
    rintro m i x (⟨hm, hx⟩ | ⟨hm, rfl⟩)
    · obtain ⟨x0, h0, rfl⟩ := h.fwd m i x hx
      exact ⟨x0, .inl ⟨hm, h0⟩, rfl⟩
    · exact ⟨[], .inr ⟨hm, rfl⟩, rfl⟩
  bwd := by
    rintro m i x (⟨hm, hx⟩ | ⟨hm, rfl⟩)
    · exact .inl ⟨hm, h.bwd m i x hx⟩
    · exact .inr ⟨hm, rfl⟩
  brk := rfl
  tame := by
    rintro m i x (⟨hm, hx⟩ | ⟨hm, rfl⟩)
    · exact h.tame m i x hx
    · trivial
  mute := by
    rintro hq m i x (⟨hm, hx⟩ | ⟨hm, rfl⟩)
    · exact h.mute hq m i x hx
    · nofun

theorem Sim.alt (h1 : Sim N q a d0) (h2 : Sim N q b d0') : Sim N q (.alt a b) (.alt d0 d0') where
  fwd := by
    rintro m i x (hx | hx)
    · obtain ⟨x0, h0, rfl⟩ := h1.fwd m i x hx
      exact ⟨x0, .inl h0, rfl⟩
    · obtain ⟨x0, h0, rfl⟩ := h2.fwd m i x hx
      exact ⟨x0, .inr h0, rfl⟩
  bwd := by
    rintro m i x (hx | hx)
    · exact .inl (h1.bwd m i x hx)
    · exact .inr (h2.bwd m i x hx)
  brk := by simp only [Doc.willBreak, h1.brk, h2.brk]
  tame := by
    rintro m i x (hx | hx)
    · exact h1.tame m i x hx
    · exact h2.tame m i x hx
  mute := by
    rintro hq m i x (hx | hx)
    · exact h1.mute hq m i x hx
    · exact h2.mute hq m i x hx

theorem Sim.noSoft (h : Sim N True d d0) : Sim N q (.noSoft d) (.noSoft d0) where
  fwd := by
    rintro m i x ⟨hx, hi, hb⟩
    obtain ⟨x0, h0, rfl⟩ := h.fwd .bare i x hx
    rw [tell_none (h.mute trivial _ _ _ h0)] at hi ⊢
    exact ⟨x0, ⟨h0, hi, by rw [← h.brk]; exact hb⟩, (tell_none (h.mute trivial _ _ _ h0)).symm⟩
  bwd := by
    rintro m i x ⟨hx, hi, hb⟩
    have h1 := h.bwd .bare i x hx
    rw [tell_none (h.mute trivial _ _ _ hx)] at h1 ⊢
    exact ⟨h1, hi, by rw [h.brk]; exact hb⟩
  brk := by simp only [Doc.willBreak, h.brk]
  tame := by
    rintro m i x ⟨hx, hi, hb⟩
    exact h.tame _ _ _ hx
  mute := by
    rintro hq m i x ⟨hx, hi, hb⟩
    exact h.mute trivial _ _ _ hx

/-- The documents have the same layouts. -/
structure Like (d' d : Doc) : Prop where
  prints : ∀ m i x, Prints m i d' x ↔ Prints m i d x
  breaks : d'.willBreak = d.willBreak

theorem Same.like (h : Same a d) : Like a d := ⟨h.prints, h.breaks⟩
theorem Like.refl (d : Doc) : Like d d := ⟨fun _ _ _ => Iff.rfl, rfl⟩
theorem Like.symm (h : Like a d) : Like d a := ⟨fun m i x => (h.prints m i x).symm, h.breaks.symm⟩
theorem Like.trans {c : Doc} (h : Like a b) (h' : Like b c) : Like a c :=
  ⟨fun m i x => (h.prints m i x).trans (h'.prints m i x), h.breaks.trans h'.breaks⟩
theorem Like.cat (h1 : Like a d) (h2 : Like b d') : Like (a ⊹ b) (d ⊹ d') where
  prints m i x := by
    constructor
    · rintro ⟨y, z, rfl, hy, hz⟩
      exact ⟨y, z, rfl, (h1.prints _ _ _).1 hy, (h2.prints _ _ _).1 hz⟩
    · rintro ⟨y, z, rfl, hy, hz⟩
      exact ⟨y, z, rfl, (h1.prints _ _ _).2 hy, (h2.prints _ _ _).2 hz⟩
  breaks := by simp only [Doc.willBreak, h1.breaks, h2.breaks]
theorem like_assoc : Like ((a ⊹ b) ⊹ d) (a ⊹ (b ⊹ d)) where
  prints m i x := by
    constructor
    · rintro ⟨y, z, rfl, ⟨u, v, rfl, hu, hv⟩, hz⟩
      exact ⟨u, v ++ z, by simp, hu, v, z, rfl, hv, hz⟩
    · rintro ⟨u, y, rfl, hu, v, z, rfl, hv, hz⟩
      exact ⟨u ++ v, z, by simp, ⟨u, v, rfl, hu, hv⟩, hz⟩
  breaks := by simp only [Doc.willBreak, Bool.or_assoc]
theorem like_nil : Like (.nil ⊹ d) d := ⟨fun _ _ _ => prints_nil_cat, by simp [Doc.willBreak]⟩

theorem SimL.like {l : Bool} (h : SimL N l q d d0) (h1 : Like a d) (h2 : Like b d0) : SimL N l q a b where
  fwd m i x hx := by
    obtain ⟨x0, h0, rfl⟩ := h.fwd m i x ((h1.prints m i x).1 hx)
    exact ⟨x0, (h2.prints _ _ _).2 h0, rfl⟩
  bwd m i x hx := (h1.prints _ _ _).2 (h.bwd m i x ((h2.prints _ _ _).1 hx))
  brk := by rw [h1.breaks, h2.breaks, h.brk]
  tame m i x hx := h.tame m i x ((h2.prints _ _ _).1 hx)
  mute hq m i x hx := h.mute hq m i x ((h2.prints _ _ _).1 hx)

theorem Sim.like (h : Sim N q d d0) (h1 : Like a d) (h2 : Like b d0) : Sim N q a b := SimL.like h h1 h2

/-- The first thing printed is a token. -/
def Starts (d : Doc) : Prop := ∀ m i x, Prints m i d x → ∃ t y, x = .tok t :: y

theorem starts_tok {t : Tok} : Starts (.tok t) := by
  intro m i x h
  have h : x = [.tok t] := h
  exact ⟨t, [], h⟩

theorem Starts.cat (h : Starts a) : Starts (a ⊹ b) := by
  rintro m i x ⟨y, z, rfl, hy, hz⟩
  obtain ⟨t, w, rfl⟩ := h m i y hy
  exact ⟨t, w ++ z, rfl⟩

theorem Starts.group {ex : Bool} (h : Starts a) : Starts (.group ex a) := by
  rintro m i x ⟨m', hm, hx⟩
  exact h m' i x hx

theorem Starts.like (h : Starts d) (hs : Like a d) : Starts a :=
  fun m i x hx => h m i x ((hs.prints m i x).1 hx)

/-! ## Comments before a statement -/

/-- `leadingDoc` with tokens for the comments. -/
def leadNotes (N : Nat) : List Comment → Doc
  | [] => .nil
  | c :: cs => .tok (noteTok N c.text) ⊹ .line (if c.after ≤ 1 then .hard else .empty) ⊹ leadNotes N cs

theorem lineEls_notes (m : PMode) (i n : Nat) : lineEls m i (if n ≤ 1 then .hard else .empty) =
    [.nl (decide (1 < n)) i] := by
  split
  · rename_i h
    simp [lineEls]; omega
  · rename_i h
    simp [lineEls]; omega

theorem line_prints {l : Line} : Prints m i (.line l) x ↔ x = lineEls m i l := Iff.rfl

theorem tok_prints {t : Tok} : Prints m i (.tok t) x ↔ x = [.tok t] := Iff.rfl

/-- Comments and what they lead. -/
theorem sim_leading : (cs : List Comment) → (q → cs = []) → Sim N q d d0 → Starts d0 →
    SimL N (!cs.isEmpty) q (leadingDoc cs ⊹ d) (leadNotes N cs ⊹ d0) ∧ Starts (leadNotes N cs ⊹ d0)
  | [], _, h, hs => by
    refine ⟨sim_nil.cat h, fun m i x hx => hs m i x (prints_nil_cat.1 hx)⟩
  | c :: cs, hq, h, hs => by
    obtain ⟨h1, h2⟩ := sim_leading cs (fun hx => by cases hq hx) h hs
    refine ⟨⟨?_, ?_, ?_, ?_, fun hx => by cases hq hx⟩, ?_⟩
    · rintro m i x ⟨u, z, rfl, ⟨u1, u2, rfl, e1, u3, u4, rfl, e2, e3⟩, hz⟩
      obtain ⟨x0, hx0, he⟩ := h1.fwd m i (u4 ++ z) ⟨u4, z, rfl, e3, hz⟩
      obtain ⟨v, w, rfl, hv, hw⟩ := hx0
      refine ⟨.tok (noteTok N c.text) :: lineEls m i (if c.after ≤ 1 then .hard else .empty) ++ v ++ w,
        ⟨_, w, rfl, ⟨[_], _, rfl, rfl, _, v, rfl, rfl, hv⟩, hw⟩, ?_⟩
      have e1 : u1 = [.comment c.text] := e1
      have e2 : u3 = lineEls m i (if c.after ≤ 1 then .hard else .empty) := e2
      rw [e1, e2]
      simp only [List.append_assoc, List.map_append, List.map_cons, List.cons_append, List.nil_append] at he ⊢
      rw [he, tell_note, lineEls_notes]
      rfl
    · rintro m i x ⟨u, z, rfl, ⟨u1, u2, rfl, e1, u3, u4, rfl, e2, e3⟩, hz⟩
      obtain ⟨v, w, hvw, hv, hw⟩ := h1.bwd m i (u4 ++ z) ⟨u4, z, rfl, e3, hz⟩
      have e1 : u1 = [.tok (noteTok N c.text)] := e1
      have e2 : u3 = lineEls m i (if c.after ≤ 1 then .hard else .empty) := e2
      refine ⟨_, w, ?_, ⟨[.comment c.text], _, rfl, rfl, _, v, rfl, rfl, hv⟩, hw⟩
      rw [e1, e2]
      simp only [List.append_assoc, List.map_append, List.map_cons, List.cons_append, List.nil_append] at hvw ⊢
      rw [hvw, tell_note, lineEls_notes]
      rfl
    · have := h1.brk
      simp only [Doc.willBreak] at this
      simp only [leadingDoc, leadNotes, Doc.willBreak, Bool.false_or]
      simp only [Bool.or_assoc, this]
    · rintro m i x ⟨u, z, rfl, ⟨u1, u2, rfl, e1, u3, u4, rfl, e2, e3⟩, hz⟩
      have e1 : u1 = [.tok (noteTok N c.text)] := e1
      have e2 : u3 = lineEls m i (if c.after ≤ 1 then .hard else .empty) := e2
      rw [lineEls_notes] at e2
      have h3 := h1.tame m i (u4 ++ z) ⟨u4, z, rfl, e3, hz⟩
      obtain ⟨t, w, hw⟩ := h2 m i (u4 ++ z) ⟨u4, z, rfl, e3, hz⟩
      rw [e1, e2]
      simp only [List.append_assoc, List.cons_append, List.nil_append]
      refine ⟨fun _ => ⟨rfl, _, _, t, w, by rw [hw]⟩, nofun, ?_⟩
      cases cs with
      | nil => exact h3.mono
      | cons c cs => exact h3
    · rintro m i x ⟨u, z, rfl, ⟨u1, u2, rfl, e1, u3, u4, rfl, e2, e3⟩, hz⟩
      have e1 : u1 = [.tok (noteTok N c.text)] := e1
      rw [e1]
      exact ⟨_, _, rfl⟩

end Verif.Format
