import Verif.Lemmas.Reread
import Verif.Lemmas.SpliceEls

/-!
# Printing statements by themselves
-/

namespace Verif.Format
open Verif.Syntax

/-! ## The line feed at the end -/

/-- At the start of a line there is a line feed before, or nothing. -/
def LineStart (s : PState) (out : List El) : Prop := s.started = false → out = [] ∨ ∃ r, out = r ++ [.rnl]

theorem lineStart_text {s : PState} {e : El} {out : List El} : LineStart (printText s e).2 out := by
  intro h; cases h

theorem lineStart_nl {s : PState} {e : Bool} {i : Nat} {out : List El} (h : LineStart s out) :
    LineStart (printNl s e i).2 (out ++ (printNl s e i).1) := by
  intro _
  unfold printNl
  cases hs : s.started with
  | true =>
    cases e
    · simp
    · exact .inr ⟨out ++ [.rnl], by simp⟩
  | false =>
    rcases h hs with rfl | ⟨r, rfl⟩
    · cases e <;> cases s.emptyLine <;> simp
    · cases e <;> cases s.emptyLine <;> simp
      exact ⟨r ++ [.rnl], by simp⟩

theorem lineStart_suffix {s : PState} {x : Option Bool × Nat × List Byte} {out : List El} :
    LineStart (printSuffix s x).2 out := by
  obtain ⟨_ | _, _, t⟩ := x <;> exact lineStart_text (e := .comment t)

theorem lineStart_suffixes {s : PState} {out : List El} (h : LineStart s out) :
    ∀ xs, LineStart (printSuffixes s xs).2 (out ++ (printSuffixes s xs).1)
  | [] => by rw [printSuffixes]; simpa using h
  | x :: xs => by
    have := lineStart_suffixes (s := (printSuffix s x).2) (out := out ++ (printSuffix s x).1) lineStart_suffix xs
    rw [List.append_assoc] at this
    exact this

theorem lineStart_flush {s : PState} {out : List El} (h : LineStart s out) : LineStart (flush s).2 (out ++ (flush s).1) :=
  lineStart_suffixes (s := { s with sfx := [] }) h _

theorem lineStart_el {s : PState} {out : List El} (h : LineStart s out) (e : El) :
    LineStart (printEl s e).2 (out ++ (printEl s e).1) := by
  cases e with
  | suffix l i t => simpa [printEl, LineStart] using h
  | space => simpa [printEl, LineStart, printSpace] using h
  | nl e i =>
    have := lineStart_nl (e := e) (i := i) (lineStart_flush h)
    rw [List.append_assoc] at this
    exact this
  | rnl =>
    intro _
    exact .inr ⟨out ++ pendingEls s, by simp [printEl, printText, pendingEls]⟩
  | tok t => exact lineStart_text
  | comment t => exact lineStart_text
  | blank bs => exact lineStart_text

theorem lineStart_run : ∀ (es : List El) {s : PState} {out : List El}, LineStart s out → LineStart (run s es).2 (out ++ (run s es).1)
  | [], s, out, h => by simpa [run] using h
  | e :: es, s, out, h => by
    have := lineStart_run es (lineStart_el h e)
    rw [List.append_assoc] at this
    exact this

/-- A text that ends with a line break ends with a line feed. -/
theorem emit_last {b : List El} {e : Bool} {i : Nat} (hb : printedToks b ≠ []) :
    ∃ r, emit (b ++ [.nl e i]) = r ++ [.rnl] := by
  have h := lineStart_run (b ++ [.nl e i]) (s := {}) (out := []) (fun _ => .inl rfl)
  have hr : run {} (b ++ [.nl e i]) = ((run {} b).1 ++ (printEl (run {} b).2 (.nl e i)).1,
    (printEl (run {} b).2 (.nl e i)).2) := by rw [run_append, run_single]
  have hst : (run {} (b ++ [.nl e i])).2.started = false := by rw [hr]; rfl
  have hfl : (flush (run {} (b ++ [.nl e i])).2).1 = [] := by
    have : (run {} (b ++ [.nl e i])).2.sfx = [] := by rw [hr]; exact flush_sfx _
    unfold flush; rw [this]; rfl
  have hE : emit (b ++ [.nl e i]) = (run {} (b ++ [.nl e i])).1 := by
    rw [emit, printEls_run, hfl, List.append_nil]
  rw [hE]
  rcases h hst with h | h
  · exfalso
    have h1 := printedToks_emit (b ++ [.nl e i])
    rw [hE, printedToks_append] at h1
    rw [List.nil_append] at h
    rw [h] at h1
    simp [printedToks] at h1
    exact hb h1
  · simpa using h

theorem respelled_last {x y : List El} (h : Respelled (x ++ [.rnl]) y) : ∃ y', y = y' ++ [.rnl] ∧ Respelled x y' := by
  induction x generalizing y with
  | nil =>
    cases h with
    | same _ h => cases h; exact ⟨[], rfl, .nil⟩
  | cons e x ih =>
    cases h with
    | same _ h =>
      obtain ⟨y', rfl, hy⟩ := ih h
      exact ⟨e :: y', rfl, .same e hy⟩
    | blank h1 h2 h3 h4 h =>
      obtain ⟨y', rfl, hy⟩ := ih h
      exact ⟨_ :: y', rfl, .blank h1 h2 h3 h4 hy⟩

theorem respelled_printed {x y : List El} (h : Respelled x y) : printedComments x = printedComments y := by
  induction h with
  | nil => rfl
  | same e _ ih => cases e <;> simp [printedComments, ih]
  | blank _ _ _ _ _ ih => simp [printedComments, ih]

/-! ## Statements in a block -/

/-- Reading statements that were formatted by themselves, at any place. -/
theorem reads_sub {o : Opts} {st : Bool} {x : Root} {g : Region} {m : Mode} {i : Nat} {els : List El}
    (hs : rootSuppressed o x.es = false) (hT : Tames st o g {} true x.es)
    (h : Lays false m i (fmtRoot o x) els) :
    ∃ es', Rews o {} true x.es es' ∧ Reads st Nc (shapes g .free es') Nc els := by
  unfold fmtRoot at h
  rw [hs, if_neg (by decide)] at h
  obtain ⟨u, v, rfl, hu, w, z, rfl, ⟨p, q, rfl, hp, hq⟩, y, t, rfl, hy, ht⟩ := h
  obtain ⟨es', hR, hr⟩ := (main_all (st := st) o).2 x.es {} g true true false m i p hT
    (quiet_false _) hp
  refine ⟨es', hR, (lays_leading hu).1.pre ?_⟩
  have hq' := lays_hard (st := st) hq
  have hy' := (lays_danglingSoft (st := st) hy)
  exact (hr.post (hq'.imp any_an fun _ => Fr.nc)).post (hy'.post (lays_trailing ht _))

theorem root_last {o : Opts} {x : Root} {m : Mode} {i : Nat} {els : List El} (hs : rootSuppressed o x.es = false)
    (ha : x.ann = {}) (h : Lays false m i (fmtRoot o x) els) : ∃ b, els = b ++ [.nl false i] := by
  rw [fmtRoot, hs, if_neg (by decide)] at h
  obtain ⟨p, y, rfl, hp, z, w, rfl, ⟨b, u, rfl, hb, (rfl : u = _)⟩, v, q, rfl, hv, hq⟩ := h
  rw [ha] at hp hv hq
  cases hp
  cases hv
  cases hq
  exact ⟨b, by simp [layLine]⟩

end Verif.Format
