import Verif.Lemmas.FormatEdges
import Verif.Lemmas.FormatBecomes
import Verif.Spec.Lines

/-!
# Lines between statements
-/

namespace Verif.Format
open Verif.Syntax

/-! ## Printing without the final flush -/

/-- Output and state after the instructions. -/
def run (s : PState) : List El → List El × PState
  | [] => ([], s)
  | e :: es => ((printEl s e).1 ++ (run (printEl s e).2 es).1, (run (printEl s e).2 es).2)

theorem printEls_run (s : PState) (x : List El) :
    printEls s x = (run s x).1 ++ (flush (run s x).2).1 := by
  induction x generalizing s with
  | nil => rfl
  | cons e x ih => simp only [printEls, run, ih, List.append_assoc]

theorem run_append (s : PState) (x y : List El) :
    run s (x ++ y) = ((run s x).1 ++ (run (run s x).2 y).1, (run (run s x).2 y).2) := by
  induction x generalizing s with
  | nil => rfl
  | cons e x ih => simp only [List.cons_append, run, ih, List.append_assoc]

theorem run_single (s : PState) (e : El) : run s [e] = printEl s e := by
  simp [run]

theorem flush_noTok (s : PState) : printedToks (flush s).1 = [] :=
  (flush_spec s .fresh fun _ => rfl).1

theorem printedToks_run (s : PState) (x : List El) : printedToks (run s x).1 = printedToks x := by
  have h := printedToks_printEls x s
  rw [printEls_run, printedToks_append, flush_noTok, List.append_nil] at h
  exact h

theorem flush_sfx (s : PState) : (flush s).2.sfx = [] :=
  (flush_spec s .fresh fun _ => rfl).2.1

/-! ## After a statement -/

/-- The output ends with text, possibly followed by one line feed; the printer knows which. -/
def Rest (out : List El) (s : PState) : Prop :=
  (∃ o t, out = o ++ [t] ∧ t.isText = true ∧ s.started = true) ∨
  (∃ o t, out = o ++ [t, .rnl] ∧ t.isText = true ∧ s.started = false ∧ s.emptyLine = false)

theorem Rest.congr {out : List El} {s s' : PState} (h : Rest out s) (h1 : s'.started = s.started)
    (h2 : s'.emptyLine = s.emptyLine) : Rest out s' := by
  unfold Rest at *
  rw [h1, h2]
  exact h

theorem Rest.text {out : List El} {t : El} (s s' : PState) (ht : t.isText = true)
    (h : s'.started = true) : Rest (out ++ (pendingEls s ++ [t])) s' :=
  .inl ⟨out ++ pendingEls s, t, by simp, ht, h⟩

theorem Rest.suffix {out : List El} {s : PState} (x : Option Bool × Nat × List Byte) :
    Rest (out ++ (printSuffix s x).1) (printSuffix s x).2 := by
  obtain ⟨l, i, t⟩ := x
  cases l with
  | none =>
    simp only [printSuffix, printText_eq]
    exact Rest.text _ _ rfl rfl
  | some e =>
    simp only [printSuffix, printText_eq]
    rw [← List.append_assoc]
    exact Rest.text _ _ rfl rfl

theorem Rest.suffixes {out : List El} {s : PState} (xs : List (Option Bool × Nat × List Byte))
    (h : Rest out s) : Rest (out ++ (printSuffixes s xs).1) (printSuffixes s xs).2 := by
  induction xs generalizing out s with
  | nil => simpa [printSuffixes] using h
  | cons x xs ih =>
    simp only [printSuffixes]
    rw [← List.append_assoc]
    exact ih (Rest.suffix x)

theorem Rest.flush {out : List El} {s : PState} (h : Rest out s) :
    Rest (out ++ (flush s).1) (flush s).2 := by
  unfold Format.flush
  exact Rest.suffixes _ (h.congr rfl rfl)

/-- Line breaks after a statement. -/
theorem Rest.nl {out : List El} {s : PState} (h : Rest out s) (e : Bool) (i : Nat) :
    ∃ o t, t.isText = true ∧
      out ++ (printNl s e i).1 = o ++ t :: List.replicate (1 + e.toNat) .rnl ∧
      (printNl s e i).2 = { s with started := false, space := false, ind := i, emptyLine := e } := by
  rcases h with ⟨o, t, rfl, ht, hs⟩ | ⟨o, t, rfl, ht, hs, he⟩
  · refine ⟨o, t, ht, ?_, ?_⟩ <;> unfold printNl <;> rw [hs] <;> cases e <;> simp <;> rfl
  · refine ⟨o, t, ht, ?_, ?_⟩ <;> unfold printNl <;> rw [hs, he] <;> cases e <;> simp <;> rfl

theorem Rest.printNl {out : List El} {s : PState} (h : Rest out s) (e : Bool) (i : Nat) :
    ∃ o t s', t.isText = true ∧
      out ++ (printEl s (.nl e i)).1 = o ++ t :: List.replicate (1 + e.toNat) .rnl ∧
      (printEl s (.nl e i)).2 = s' ∧ s'.started = false ∧ s'.space = false ∧ s'.ind = i ∧
      s'.emptyLine = e ∧ s'.sfx = [] := by
  obtain ⟨o, t, ht, h1, h2⟩ := h.flush.nl e i
  refine ⟨o, t, _, ht, ?_, rfl, ?_⟩
  · simp only [printEl]
    rw [← List.append_assoc]
    exact h1
  · simp only [printEl]
    rw [h2]
    exact ⟨rfl, rfl, rfl, rfl, flush_sfx s⟩

theorem Rest.tail {out : List El} {s : PState} (q : List El) (h : Rest out s)
    (hq : ∀ a ∈ q, a.isTail = true) : Rest (out ++ (run s q).1) (run s q).2 := by
  induction q generalizing out s with
  | nil => simpa [run] using h
  | cons a q ih =>
    simp only [run]
    rw [← List.append_assoc]
    refine ih ?_ fun b hb => hq b (List.mem_cons_of_mem _ hb)
    have ha := hq a (List.mem_cons_self ..)
    cases a with
    | suffix l i t =>
      simp only [printEl, List.append_nil]
      exact h.congr rfl rfl
    | nl e i =>
      have : e = false := by simpa [El.isTail] using ha
      subst this
      obtain ⟨o, t, s', ht, h1, h2, h3, h4, h5, h6, h7⟩ := h.printNl false i
      rw [h1, h2]
      exact .inr ⟨o, t, by simp, ht, h3, h6⟩
    | _ => cases ha

/-- After a layout that ends with text. -/
theorem Ends.rest {x : List El} (h : Ends x) (s : PState) : Rest (run s x).1 (run s x).2 := by
  obtain ⟨p, e, q, rfl, he, hq⟩ := h
  rw [run_append]
  show Rest ((run s p).1 ++ (run (run s p).2 ([e] ++ q)).1) (run (run s p).2 ([e] ++ q)).2
  rw [run_append, run_single]
  dsimp only
  rw [← List.append_assoc]
  refine Rest.tail q ?_ hq
  have : printEl (run s p).2 e = printText (run s p).2 e := by
    cases e <;> simp_all [El.isText, printEl]
  rw [this, printText_eq]
  exact Rest.text _ _ he rfl

theorem Rest.pre {out : List El} {s : PState} (h : Rest out s) (p : List El) : Rest (p ++ out) s := by
  rcases h with ⟨o, t, rfl, ht, hs⟩ | ⟨o, t, rfl, ht, hs⟩
  · exact .inl ⟨p ++ o, t, by simp, ht, hs⟩
  · exact .inr ⟨p ++ o, t, by simp, ht, hs⟩

/-- A layout that starts with text prints the pending blanks first. -/
theorem begins_ends_run {x : List El} (hb : Begins x) (he : Ends x) (s : PState) :
    ∃ a r, (run s x).1 = pendingEls s ++ a :: r ∧ a.isText = true ∧ Rest (a :: r) (run s x).2 := by
  obtain ⟨e, r, rfl, ht⟩ := hb
  have hpr : printEl s e = printText s e := by
    cases e <;> simp_all [El.isText, printEl]
  simp only [run, hpr, printText_eq]
  refine ⟨e, _, by rw [List.append_assoc]; rfl, ht, ?_⟩
  obtain ⟨p, e', q, hx, ht', hq⟩ := he
  cases p with
  | nil =>
    obtain ⟨rfl, rfl⟩ := List.cons.inj hx
    exact Rest.tail (out := [e]) r (.inl ⟨[], e, rfl, ht, rfl⟩) hq
  | cons u p =>
    obtain ⟨rfl, rfl⟩ := List.cons.inj hx
    exact (Ends.rest ⟨p, e', q, rfl, ht', hq⟩ _).pre [e]

/-! ## Separators -/

/-- Line feeds between two statements. -/
def sepCount (top : Bool) (n : Nat) : Nat := 1 + min (n - 1) (if top then 2 else 1)

/-- The printer is at the start of a line. -/
def Fresh (i : Nat) (s : PState) : Prop :=
  s.started = false ∧ s.space = false ∧ s.ind = i ∧ s.sfx = []

theorem Fresh.pending {i : Nat} {s : PState} (h : Fresh i s) : pendingEls s = indentation i := by
  unfold pendingEls indentation
  rw [h.2.1, h.2.2.1]
  simp

theorem rest_sep {out : List El} {s : PState} (h : Rest out s) {top ns : Bool} {m : Mode}
    {i n : Nat} {y : List El} (hi : top = true → i = 0) (hy : Lays ns m i (stmtSep top n) y) :
    ∃ o t, t.isText = true ∧
      out ++ (run s y).1 = o ++ t :: List.replicate (sepCount top n) .rnl ∧
      Fresh i (run s y).2 := by
  have one : ∀ e, y = [.nl e i] → sepCount top n = 1 + e.toNat →
      ∃ o t, t.isText = true ∧
      out ++ (run s y).1 = o ++ t :: List.replicate (sepCount top n) .rnl ∧
      Fresh i (run s y).2 := by
    rintro e rfl hk
    obtain ⟨o, t, s', ht, h1, h2, h3, h4, h5, h6, h7⟩ := h.printNl e i
    rw [run_single]
    exact ⟨o, t, ht, by rw [h1, hk], by rw [h2]; exact ⟨h3, h4, h5, h7⟩⟩
  unfold stmtSep at hy
  cases top with
  | true =>
    rw [if_pos rfl] at hy
    split at hy
    · next hn =>
      obtain ⟨u, v, rfl, (rfl : u = _), (rfl : v = _)⟩ := hy
      obtain ⟨o, t, s', ht, h1, h2, h3, h4, h5, h6, h7⟩ := h.printNl true i
      rw [run_append]
      show ∃ (o : List El) (t : El), t.isText = true ∧
        out ++ ((run s [.nl true i]).1 ++ (run (run s [.nl true i]).2 [.rnl]).1) = _ ∧ _
      rw [run_single, run_single, ← List.append_assoc, h1, h2]
      refine ⟨o, t, ht, ?_, ?_⟩
      · have hk : sepCount true n = 3 := by unfold sepCount; simp; omega
        have hp : pendingEls s' = [] := by
          unfold pendingEls; rw [h4, h5, hi rfl]; rfl
        simp only [printEl, printText_eq, hp, hk]
        simp [List.replicate]
      · show Fresh i (run (run s [.nl true i]).2 [.rnl]).2
        rw [run_single, run_single, h2]
        exact ⟨rfl, rfl, (hi rfl).symm, h7⟩
    · split at hy
      · next hn =>
        refine one true hy ?_
        unfold sepCount; rw [hn]; rfl
      · next h1 h2 =>
        refine one false hy ?_
        unfold sepCount; simp; omega
  | false =>
    rw [if_neg (by decide)] at hy
    split at hy
    · next hn =>
      refine one true hy ?_
      unfold sepCount; simp; omega
    · next hn =>
      refine one false hy ?_
      unfold sepCount; simp; omega

/-! ## Lists of statements -/

theorem blank_lines (ts : List Token) : linesBefore ts - 1 = blankLines ts := by
  cases ts with
  | nil => rfl
  | cons t ts => simp only [linesBefore, linesBeforeToken, blankLines, List.countP_eq_length_filter]

/-- Limit of blank lines. -/
def blankLimit (top : Bool) : Nat := if top then 2 else 1

theorem printedToks_replicate (n : Nat) : printedToks (List.replicate n .rnl) = [] := by
  induction n with
  | zero => rfl
  | succ n ih => rw [List.replicate_succ]; exact ih

theorem printedToks_sep {top ns : Bool} {m : Mode} {i n : Nat} {y : List El}
    (hy : Lays ns m i (stmtSep top n) y) : printedToks y = [] := by
  unfold stmtSep at hy
  split at hy
  · split at hy
    · obtain ⟨u, v, rfl, (rfl : u = _), (rfl : v = _)⟩ := hy; rfl
    · split at hy <;> cases hy <;> rfl
  · split at hy <;> cases hy <;> rfl

theorem fmt_toks {o : Opts} {cx : Cx} {e : Expr} {ns : Bool} {m : Mode} {i : Nat} {y : List El}
    (hy : Lays ns m i (fmt o cx e) y) :
    ∃ e', Rew o cx.core e e' ∧ printedToks y = e'.tokens.map outTok := by
  obtain ⟨e', hR, hr⟩ := (main_all (st := false) o).1 e cx .top ns m i y (tame_weak _ _ _ _)
    (by intro h; cases h) hy
  exact ⟨e', hR, by rw [hr.2, shape_toks]⟩

theorem statement_of {o : Opts} {cx : Cx} {p : Place} {e : Expr} {ns : Bool} {m : Mode} {i : Nat}
    {y : List El} (hp : At cx p) (hy : Lays ns m i (fmt o cx e) y)
    {a t : El} {r w r' rn : List El}
    (ha : a.isText = true) (ht : t.isText = true) (hw : printedToks (a :: r ++ w) = printedToks y)
    (hrn : printedToks rn = [])
    (he : a :: r ++ w = r' ++ t :: rn) : Statement o p e (r' ++ [t]) := by
  refine ⟨?_, ⟨r', t, rfl, ht⟩, ?_⟩
  · cases r' with
    | nil => exact ⟨t, [], rfl, ht⟩
    | cons b r' =>
      have : a = b := (List.cons.inj he).1
      exact ⟨b, r' ++ [t], rfl, this ▸ ha⟩
  · obtain ⟨e', hR, hr⟩ := fmt_toks hy
    have hp' : At cx.core p := ⟨hp.effect, hp.eq, hp.braces, hp.table⟩
    refine ⟨e', rew_becomes o _ _ _ _ hp' hR, ?_⟩
    rw [← hr, ← hw, he]
    have : r' ++ t :: rn = (r' ++ [t]) ++ rn := by simp
    rw [this, printedToks_append (r' ++ [t]) rn, hrn, List.append_nil]

theorem listing (o : Opts) (cx : Cx) (top : Bool) : ∀ (es : Exprs) (ns : Bool) (m : Mode) (i j : Nat)
    (s : PState) (x : List El), es ≠ .nil → (top = true → i = 0) → Fresh i s →
    Lays ns m i (fmtExprs o cx top true es) x →
    ∃ body, (run s (x ++ [.nl false j])).1 = indentation i ++ body ++ [.rnl] ∧
      Listing o top (blankLimit top) i es body ∧ Fresh j (run s (x ++ [.nl false j])).2
  | .nil, _, _, _, _, _, _, hn, _, _, _ => absurd rfl hn
  | .cons e es, ns, m, i, j, s, x, _, hi, hs, hx => by
    rw [fmtExprs, if_pos rfl] at hx
    obtain ⟨u, v, rfl, (rfl : u = _), y, z, rfl, hy, hz⟩ := hx
    rw [List.nil_append]
    have hat : At { dir := true, eq := true, inArg := cx.inArg, effect := top || 0 < es.length }
        { effect := top || 0 < es.length, assign := true } :=
      ⟨rfl, rfl, .inl ⟨rfl, rfl⟩, (fun h => by cases h)⟩
    obtain ⟨a, r, h1, ha, hR⟩ :=
      begins_ends_run (fmt_begins o e _ _ _ _ _ hy) (fmt_ends o e _ _ _ _ _ hy) s
    have hpt : printedToks (a :: r) = printedToks y := by
      have := printedToks_run s y
      rw [h1, printedToks_append, (pending_noTok s : printedToks _ = [])] at this
      exact this
    rw [hs.pending] at h1
    cases es with
    | nil =>
      rw [fmtExprs] at hz
      cases hz
      rw [List.append_nil, run_append, run_single]
      obtain ⟨o', t, s', ht, h2, h3, h4, h5, h6, h7, h8⟩ := hR.printNl false j
      dsimp only
      rw [h1, h3]
      refine ⟨o' ++ [t], ?_, ?_, h4, h5, h6, h8⟩
      · rw [List.append_assoc, h2]; simp
      · rw [Listing]
        refine ⟨_, statement_of hat hy (w := (printEl (run s y).2 (.nl false j)).1) ha ht ?_ ?_ h2,
          .inl ⟨rfl, rfl⟩⟩
        · rw [← run_single, printedToks_append, hpt, printedToks_run]; simp [printedToks]
        · rfl
    | cons f fs =>
      have hz' : ∃ sp w, z = sp ++ w ∧ Lays ns m i (stmtSep top (linesBefore f.tokens)) sp ∧
          Lays ns m i (fmtExprs o cx top true (.cons f fs)) w := by
        rw [fmtExprs, if_neg (by decide)] at hz
        obtain ⟨sp, w, rfl, hsp, hw⟩ := hz
        refine ⟨sp, w, rfl, hsp, ?_⟩
        rw [fmtExprs, if_pos rfl]
        exact ⟨[], w, rfl, rfl, hw⟩
      obtain ⟨sp, w, rfl, hsp, hw⟩ := hz'
      obtain ⟨o', t, ht, h2, h3⟩ := rest_sep hR hi hsp
      obtain ⟨body, h4, h5, h6⟩ := listing o cx top (.cons f fs) ns m i j _ w (by simp) hi h3 hw
      rw [show y ++ (sp ++ w) ++ [El.nl false j] = y ++ (sp ++ (w ++ [.nl false j])) by simp,
        run_append, run_append]
      dsimp only
      refine ⟨o' ++ [t] ++ List.replicate (1 + min (Exprs.blanks (.cons f fs)) (blankLimit top)) .rnl ++
        indentation i ++ body, ?_, ?_, h6⟩
      · rw [h1, h4, List.append_assoc (indentation i), ← List.append_assoc (a :: r), h2]
        simp only [Exprs.blanks, sepCount, blank_lines, blankLimit]
        simp
      · rw [Listing]
        refine ⟨_, statement_of hat hy (w := (run (run s y).2 sp).1) ha ht ?_ ?_ h2,
          .inr ⟨body, h5, rfl⟩⟩
        · rw [printedToks_append, hpt, printedToks_run, printedToks_sep hsp, List.append_nil]
        · exact printedToks_replicate _

end Verif.Format
