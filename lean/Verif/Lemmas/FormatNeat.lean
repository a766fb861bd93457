import Verif.Lemmas.FormatFree
import Verif.Lemmas.FormatLines
import Verif.Spec.Neat

/-!
# White space the printer writes
-/

namespace Verif.Format
open Verif.Syntax

theorem read_append (q : Last) (x y : List El) :
    q.read (x ++ y) = (q.read x).bind (fun q => q.read y) := by
  induction x generalizing q with
  | nil => rfl
  | cons e x ih =>
    simp only [List.cons_append, Last.read]
    cases q.next e with
    | none => rfl
    | some q => exact ih q

theorem read_trans {q r t : Last} {x y : List El} (h : q.read x = some r) (h' : r.read y = some t) :
    q.read (x ++ y) = some t := by
  rw [read_append, h]; exact h'

/-- The printer knows what it printed last. -/
def Knows (s : PState) : Last → Prop
  | .text => s.started = true ∧ s.ind = 0
  | .lines n => s.started = false ∧ s.space = false ∧
      (n = 1 ∧ s.emptyLine = false ∨ n = 2 ∧ s.emptyLine = true)
  | _ => False

theorem Knows.congr {s s' : PState} {q : Last} (h : Knows s q) (h1 : s'.started = s.started)
    (h2 : s'.ind = s.ind) (h3 : s'.space = s.space) (h4 : s'.emptyLine = s.emptyLine) : Knows s' q := by
  unfold Knows at *
  rw [h1, h2, h3, h4]
  exact h

theorem next_text {q : Last} {e : El} (he : e.isText = true) : q.next e = some .text := by
  cases q <;> cases e <;> first | rfl | cases he

theorem next_gap : Last.text.next (.blank [32]) = some .gap := rfl
theorem next_rnl : Last.text.next .rnl = some (.lines 1) := rfl
theorem next_line : (Last.lines 1).next .rnl = some (.lines 2) := rfl
theorem next_margin {n i : Nat} (hn : n < 3) (hi : i ≠ 0) :
    (Last.lines n).next (.blank (List.replicate i 9)) = some .margin := by
  simp [Last.next, hn, hi]

theorem Knows.printText {s : PState} {q : Last} (h : Knows s q) {e : El} (he : e.isText = true) :
    q.read (printText s e).1 = some .text ∧ Knows (printText s e).2 .text := by
  refine ⟨?_, rfl, rfl⟩
  unfold Format.printText
  cases q with
  | text =>
    rw [h.2]
    cases s.space <;> simp [Last.read, next_text he, next_gap]
  | lines n =>
    obtain ⟨-, h2, h3⟩ := h
    rw [h2]
    have hn : n < 3 := by omega
    by_cases hi : s.ind = 0
    · simp [hi, Last.read, next_text he]
    · simp [hi, Last.read, next_text he, next_margin hn hi]
  | _ => exact h.elim

theorem Knows.printNl {s : PState} {q : Last} (h : Knows s q) (e : Bool) (i : Nat) :
    ∃ n, q.read (printNl s e i).1 = some (.lines n) ∧ Knows (printNl s e i).2 (.lines n) := by
  unfold Format.printNl
  cases q with
  | text =>
    rw [h.1]
    cases e
    · exact ⟨1, rfl, rfl, rfl, .inl ⟨rfl, by simp⟩⟩
    · exact ⟨2, rfl, rfl, rfl, .inr ⟨rfl, by simp⟩⟩
  | lines n =>
    obtain ⟨h1, h2, h3 | h3⟩ := h
    · obtain ⟨rfl, h3⟩ := h3
      rw [h1, h3]
      cases e
      · exact ⟨1, rfl, rfl, rfl, .inl ⟨rfl, by simp⟩⟩
      · exact ⟨2, rfl, rfl, rfl, .inr ⟨rfl, by simp⟩⟩
    · obtain ⟨rfl, h3⟩ := h3
      rw [h1, h3]
      cases e <;> exact ⟨2, rfl, rfl, rfl, .inr ⟨rfl, by simp⟩⟩
  | _ => exact h.elim

theorem Knows.printSpace {s : PState} {q : Last} (h : Knows s q) : Knows (printSpace s) q := by
  unfold Format.printSpace
  cases q with
  | text => exact h
  | lines n =>
    obtain ⟨h1, h2, h3⟩ := h
    exact ⟨h1, by simp [h1, h2], h3⟩
  | _ => exact h.elim

theorem Knows.printSuffix {s : PState} {q : Last} (h : Knows s q) (x : Option Bool × Nat × List Byte) :
    q.read (printSuffix s x).1 = some .text ∧ Knows (printSuffix s x).2 .text := by
  obtain ⟨l, i, t⟩ := x
  cases l with
  | none => exact h.printSpace.printText rfl
  | some e =>
    obtain ⟨n, h1, h2⟩ := h.printNl e i
    have h3 := h2.printText (e := .comment t) rfl
    exact ⟨read_trans h1 h3.1, h3.2⟩

theorem Knows.printSuffixes {s : PState} {q : Last} (h : Knows s q)
    (xs : List (Option Bool × Nat × List Byte)) :
    ∃ q', q.read (printSuffixes s xs).1 = some q' ∧ Knows (printSuffixes s xs).2 q' := by
  induction xs generalizing s q with
  | nil => exact ⟨q, rfl, h⟩
  | cons x xs ih =>
    obtain ⟨h1, h2⟩ := h.printSuffix x
    obtain ⟨q', h3, h4⟩ := ih h2
    exact ⟨q', read_trans h1 h3, h4⟩

theorem Knows.flush {s : PState} {q : Last} (h : Knows s q) :
    ∃ q', q.read (flush s).1 = some q' ∧ Knows (flush s).2 q' :=
  Knows.printSuffixes (s := { s with sfx := [] }) (h.congr rfl rfl rfl rfl) _

theorem Knows.printEl {s : PState} {q : Last} (h : Knows s q) {e : El} (he : e.free = true) :
    ∃ q', q.read (printEl s e).1 = some q' ∧ Knows (printEl s e).2 q' := by
  cases e with
  | suffix l i t => exact ⟨q, rfl, h.congr rfl rfl rfl rfl⟩
  | space => exact ⟨q, rfl, h.printSpace⟩
  | nl e i =>
    obtain ⟨q', h1, h2⟩ := h.flush
    obtain ⟨n, h3, h4⟩ := h2.printNl e i
    exact ⟨_, read_trans h1 h3, h4⟩
  | tok t => exact ⟨_, h.printText rfl⟩
  | comment t => exact ⟨_, h.printText rfl⟩
  | blank bs => cases he
  | rnl => cases he

theorem Knows.run {s : PState} {q : Last} (x : List El) (h : Knows s q)
    (hx : ∀ e ∈ x, e.free = true) :
    ∃ q', q.read (run s x).1 = some q' ∧ Knows (run s x).2 q' := by
  induction x generalizing s q with
  | nil => exact ⟨q, rfl, h⟩
  | cons e x ih =>
    obtain ⟨q', h1, h2⟩ := h.printEl (hx e (List.mem_cons_self ..))
    obtain ⟨q'', h3, h4⟩ := ih h2 fun a ha => hx a (List.mem_cons_of_mem _ ha)
    exact ⟨q'', read_trans h1 h3, h4⟩

/-! ## Statements -/

/-- What was printed last if the output ends with text or with text and a line feed. -/
theorem read_rest {q q' : Last} {out : List El} {s : PState} (hr : Rest out s)
    (h : q.read out = some q') : q' = .text ∧ s.started = true ∨ q' = .lines 1 ∧ s.started = false := by
  rcases hr with ⟨o, t, rfl, ht, hs⟩ | ⟨o, t, rfl, ht, hs, he⟩
  · refine .inl ⟨?_, hs⟩
    rw [read_append] at h
    cases h' : q.read o with
    | none => rw [h'] at h; cases h
    | some r =>
      rw [h'] at h
      simp only [Option.bind, Last.read, next_text ht] at h
      exact (Option.some.inj h).symm
  · refine .inr ⟨?_, hs⟩
    rw [read_append] at h
    cases h' : q.read o with
    | none => rw [h'] at h; cases h
    | some r =>
      rw [h'] at h
      simp only [Option.bind, Last.read, next_text ht, next_rnl] at h
      exact (Option.some.inj h).symm

/-- Before a statement: the printer is at the start of a line that is not indented, and nothing is
pending. -/
def AtStart (s : PState) (q : Last) : Prop :=
  Fresh 0 s ∧ (q = .start ∨ ∃ n, q = .lines n)

/-- After a layout that starts and ends with text. -/
theorem AtStart.statement {s : PState} {q : Last} (h : AtStart s q) {x : List El} (hb : Begins x)
    (he : Ends x) (hx : ∀ e ∈ x, e.free = true) :
    ∃ q', q.read (run s x).1 = some q' ∧ Knows (run s x).2 q' ∧ Rest (run s x).1 (run s x).2 := by
  have hR := he.rest s
  obtain ⟨e, r, rfl, ht⟩ := hb
  have hpr : printEl s e = printText s e := by
    cases e <;> simp_all [El.isText, printEl]
  have hp := h.1.pending
  have h1 : q.read (printEl s e).1 = some .text := by
    rw [hpr, printText_eq, hp]
    simp [indentation, Last.read, next_text ht]
  have h2 : Knows (printEl s e).2 .text := by rw [hpr]; exact ⟨rfl, rfl⟩
  obtain ⟨q', h3, h4⟩ := h2.run r fun a ha => hx a (List.mem_cons_of_mem _ ha)
  exact ⟨q', read_trans h1 h3, h4, hR⟩

/-- A line break after a statement. -/
theorem rest_nl {q q' : Last} {out : List El} {s : PState} (hr : Rest out s)
    (h : q.read out = some q') (hk : Knows s q') (e : Bool) :
    q.read (out ++ (printEl s (.nl e 0)).1) = some (.lines (1 + e.toNat)) ∧
      Fresh 0 (printEl s (.nl e 0)).2 := by
  obtain ⟨o, t, s', ht, h1, h2, h3, h4, h5, h6, h7⟩ := hr.printNl e 0
  refine ⟨?_, by rw [h2]; exact ⟨h3, h4, h5, h7⟩⟩
  obtain ⟨q'', h8, -⟩ := hk.printEl (e := .nl e 0) rfl
  have h9 := read_trans h h8
  rw [h1] at h9 ⊢
  rw [read_append] at h9 ⊢
  cases h' : q.read o with
  | none => rw [h'] at h9; cases h9
  | some r =>
    simp only [Option.bind]
    cases e <;> simp [List.replicate, Last.read, next_text ht, next_rnl, next_line]

theorem rest_stmtSep {q q' : Last} {out : List El} {s : PState} (hr : Rest out s)
    (h : q.read out = some q') (hk : Knows s q') {ns : Bool} {m : Mode} {n : Nat} {y : List El}
    (hy : Lays ns m 0 (stmtSep true n) y) :
    ∃ k, q.read (out ++ (run s y).1) = some (.lines k) ∧ Fresh 0 (run s y).2 := by
  unfold stmtSep at hy
  rw [if_pos rfl] at hy
  split at hy
  · obtain ⟨u, v, rfl, (rfl : u = _), (rfl : v = _)⟩ := hy
    obtain ⟨h1, h2⟩ := rest_nl hr h hk true
    have e1 : run s (layLine ns m 0 .empty ++ [.rnl]) =
        ((printEl s (.nl true 0)).1 ++ (printEl (printEl s (.nl true 0)).2 .rnl).1,
          (printEl (printEl s (.nl true 0)).2 .rnl).2) := by
      simp [layLine, run]
    rw [e1]
    have hp := h2.pending
    refine ⟨3, ?_, rfl, rfl, rfl, h2.2.2.2⟩
    rw [← List.append_assoc]
    refine read_trans h1 ?_
    simp only [printEl, printText_eq, hp]
    rfl
  · split at hy
    · cases hy
      obtain ⟨h1, h2⟩ := rest_nl hr h hk true
      exact ⟨2, by simpa [layLine, run] using h1, by simpa [layLine, run] using h2⟩
    · cases hy
      obtain ⟨h1, h2⟩ := rest_nl hr h hk false
      exact ⟨1, by simpa [layLine, run] using h1, by simpa [layLine, run] using h2⟩

theorem neat_statements (o : Opts) (cx : Cx) : ∀ (es : Exprs) (ns : Bool)
    (m : Mode) (s : PState) (q : Last) (x : List El), es ≠ .nil → es.ordinary o = true → AtStart s q →
    Lays ns m 0 (fmtExprs o cx true true es) x →
    q.read (run s (x ++ [.nl false 0])).1 = some (.lines 1) ∧ Fresh 0 (run s (x ++ [.nl false 0])).2
  | .nil, _, _, _, _, _, hn, _, _, _ => absurd rfl hn
  | .cons e es, ns, m, s, q, x, _, ho, hs, hx => by
    rw [fmtExprs, if_pos rfl] at hx
    obtain ⟨u, v, rfl, (rfl : u = _), y, z, rfl, hy, hz⟩ := hx
    rw [List.nil_append]
    simp only [Exprs.ordinary, Bool.and_eq_true] at ho
    have hf : ∀ a ∈ y, a.free = true :=
      Doc.free.lays (free_fmt e _ ho.1 (fun h => by cases h)) _ _ _ _ hy
    obtain ⟨q', h1, h2, h3⟩ :=
      hs.statement (fmt_begins o e _ _ _ _ _ hy) (fmt_ends o e _ _ _ _ _ hy) hf
    cases es with
    | nil =>
      rw [fmtExprs] at hz
      cases hz
      rw [List.append_nil, run_append, run_single]
      exact rest_nl h3 h1 h2 false
    | cons e' es' =>
      rw [fmtExprs, if_neg (by decide)] at hz
      obtain ⟨w, z', rfl, hw, hz'⟩ := hz
      obtain ⟨k, h4, h5⟩ := rest_stmtSep h3 h1 h2 hw
      have hrec := neat_statements o cx (.cons e' es') ns m (run (run s y).2 w).2 (.lines k) z'
        (by intro h; cases h) ho.2 ⟨h5, .inr ⟨k, rfl⟩⟩ (by
          rw [fmtExprs, if_pos rfl]
          exact ⟨[], _, rfl, rfl, hz'⟩)
      rw [List.append_assoc, run_append, List.append_assoc, run_append]
      dsimp only
      refine ⟨?_, hrec.2⟩
      rw [← List.append_assoc]
      exact read_trans h4 hrec.1

/-- The whole file. -/
theorem neat_root {o : Opts} {x : Root} {m : Mode} {els : List El}
    (hs : rootSuppressed o x.es = false) (ho : x.es.ordinary o = true) (ha : x.ann = {})
    (h : Lays false m 0 (fmtRoot o x) els) : NeatFile (emit els) := by
  rw [fmtRoot, hs, if_neg (by decide)] at h
  obtain ⟨p, y, rfl, hp, z, w, rfl, ⟨b, u, rfl, hb, (rfl : u = _)⟩, v, q, rfl, hv, hq⟩ := h
  rw [ha] at hp hv hq
  cases hp
  cases hv
  cases hq
  rw [List.nil_append, List.append_nil, List.append_nil, emit, printEls_run]
  by_cases hne : x.es = .nil
  · rw [hne, fmtExprs] at hb
    cases hb
    exact .inl rfl
  · obtain ⟨h1, h2⟩ := neat_statements o {} x.es false m {} .start b hne ho
      ⟨⟨rfl, rfl, rfl, rfl⟩, .inl rfl⟩ hb
    refine .inr ?_
    have hfl : (flush (run {} (b ++ [.nl false 0])).2).1 = [] := by
      unfold flush; rw [h2.2.2.2]; rfl
    show Last.start.read ((run {} (b ++ [.nl false 0])).1 ++
      (flush (run {} (b ++ [.nl false 0])).2).1) = _
    rw [hfl, List.append_nil]
    exact h1

end Verif.Format
