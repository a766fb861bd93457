import Verif.Lemmas.Statements
import Verif.Lemmas.Comments
import Verif.Lemmas.FormatBlock
import Verif.Lemmas.FormatEdits

/-!
# Printing statements with their comments
-/

namespace Verif.Format
open Verif.Syntax

variable {o : Opts}

theorem fmt_wrapped (o : Opts) (cx : Cx) (e : Expr) : ∃ d, fmt o cx e = wrapDoc o cx e d := by
  cases e <;> exact ⟨_, by rw [fmt.eq_def]⟩

theorem leadingDoc_split {A L : List Comment} {ns : Bool} {m : Mode} {i : Nat} : ∀ {x : List El},
    Lays ns m i (leadingDoc (A ++ L)) x →
    ∃ y z, x = y ++ z ∧ Lays ns m i (leadingDoc A) y ∧ Lays ns m i (leadingDoc L) z := by
  induction A with
  | nil => intro x h; exact ⟨[], x, rfl, rfl, h⟩
  | cons c A ih =>
    intro x h
    obtain ⟨u, v, rfl, hu, y, z, rfl, hy, hz⟩ := h
    obtain ⟨a, b, rfl, ha, hb⟩ := ih hz
    exact ⟨u ++ (y ++ a), b, by simp, ⟨u, y ++ a, rfl, hu, y, a, rfl, hy, ha⟩, hb⟩

theorem takeWhile_over {α : Type} (p : α → Bool) (A L : List α) (h : ∀ c ∈ A, p c = true) :
    (A ++ L).takeWhile p = A ++ L.takeWhile p := by
  induction A with
  | nil => rfl
  | cons a A ih =>
    rw [List.cons_append, List.takeWhile_cons_of_pos (h a (List.mem_cons_self ..)),
      ih fun c hc => h c (List.mem_cons_of_mem _ hc)]
    rfl

/-- A statement is printed as the comments before it, the statement itself and the comments behind it. -/
theorem stmt_layout {X Y : List (List Byte)} {s : Station} {e : Expr} (hs : s.Cares X Y e) {cx : Cx} (hc : cx.chain = false) {ns : Bool} {m : Mode}
    {i : Nat} {y : List El} (h : Lays ns m i (fmt o cx e) y) :
    ∃ y1 y2 y3 A H n, y = y1 ++ y2 ++ y3 ∧ Lays ns m i (leadingDoc A) y1 ∧ texts A = X ++ s.ahead ∧
      Lays ns m i (trailingDoc n H) y3 ∧ texts H = s.behind := by
  obtain ⟨A, L, h1, h2, h3⟩ := hs.leading
  obtain ⟨h4, h5⟩ := hs.trailing
  obtain ⟨d, hd⟩ := fmt_wrapped o cx e
  rw [hd, wrapDoc, hc, Bool.false_and, if_neg (by decide)] at h
  split at h
  · unfold verbatimDoc at h
    have hd : e.ann.trailing.dropWhile Comment.within = e.ann.trailing := by
      cases ht : e.ann.trailing with
      | nil => rfl
      | cons c cs =>
        rw [ht] at h5
        rw [List.dropWhile_cons_of_neg (by rw [h5 c (List.mem_cons_self ..)]; decide)]
    rw [h1, takeWhile_over _ _ _ (by intro c hc; rw [h3 c hc]; rfl), hd] at h
    obtain ⟨u, v, rfl, hu, w, z, rfl, hw, hz⟩ := h
    obtain ⟨a, b, rfl, ha, hb⟩ := leadingDoc_split hu
    exact ⟨a, b ++ w, z, A, _, 0, by simp, ha, h2, hz, h4⟩
  · unfold nodeDoc at h
    rw [h1] at h
    obtain ⟨u, v, rfl, hu, w, z, rfl, hw, p, q, rfl, hp, hq⟩ := h
    obtain ⟨a, b, rfl, ha, hb⟩ := leadingDoc_split hu
    exact ⟨a, b ++ w ++ p, q, A, _, 0, by simp, ha, h2, hq, h4⟩

theorem leading_run (cs : List Comment) : ∀ (ns : Bool) (m : Mode) (i : Nat) (s : PState) (x : List El),
    Lays ns m i (leadingDoc cs) x → Fresh i s → printedComments (run s x).1 = texts cs := by
  induction cs with
  | nil => intro ns m i s x h _; cases h; rfl
  | cons c cs ih =>
    intro ns m i s x h hs
    have hf := leading_fresh [c] ns m i s
    obtain ⟨u, v, rfl, hu, y, z, rfl, hy, hz⟩ := h
    have hf := hf (u ++ (y ++ [])) ⟨u, y ++ [], rfl, hu, y, [], rfl, hy, rfl⟩ hs
    rw [List.append_nil] at hf
    rw [← List.append_assoc, run_append, printedComments_append, ih _ _ _ _ _ hz hf]
    cases hu
    have key : ∀ b, printedComments (run s ([.comment c.text] ++ [.nl b i])).1 = [c.text] := by
      intro b
      rw [run_append, run_single, run_single]
      simp only [printEl, printText_eq, printedComments_append, pending_comments, printNl_comments, List.nil_append,
        List.append_nil]
      have hx : (flush { s with started := true, space := false, ind := 0, emptyLine := false }).1 = [] := by
        simp only [flush]
        rw [hs.2.2.2]
        rfl
      rw [hx]
      rfl
    have hy' : y = layLine ns m i (if c.after ≤ 1 then .hard else .empty) := hy
    have : ∃ b, y = [.nl b i] := by
      rw [hy']
      split
      · exact ⟨false, rfl⟩
      · exact ⟨true, rfl⟩
    obtain ⟨b, rfl⟩ := this
    rw [key b]
    rfl

theorem trailing_waits (cs : List Comment) : ∀ (n : Nat) (ns : Bool) (m : Mode) (i : Nat) (s : PState) (x : List El),
    Lays ns m i (trailingDoc n cs) x →
    ∃ xs, run s x = ([], { s with sfx := s.sfx ++ xs }) ∧ xs.map (·.2.2) = texts cs := by
  induction cs with
  | nil => intro n ns m i s x h; cases h; exact ⟨[], by simp [run], rfl⟩
  | cons c cs ih =>
    intro n ns m i s x h
    obtain ⟨u, v, rfl, hu, hv⟩ := h
    obtain ⟨xs, h1, h2⟩ := ih _ _ _ _ { s with sfx := s.sfx ++
      [(if n + c.before = 0 then none else some (decide (1 < c.before)), i, c.text)] } v hv
    cases hu
    refine ⟨(if n + c.before = 0 then none else some (decide (1 < c.before)), i, c.text) :: xs, ?_,
      by rw [List.map_cons, h2]; rfl⟩
    rw [run_append, run_single]
    simp only [printEl]
    rw [h1]
    simp

theorem printSuffixes_append (xs ys : List (Option Bool × Nat × List Byte)) : ∀ (s : PState),
    printSuffixes s (xs ++ ys) = ((printSuffixes s xs).1 ++ (printSuffixes (printSuffixes s xs).2 ys).1,
      (printSuffixes (printSuffixes s xs).2 ys).2) := by
  induction xs with
  | nil => intro s; rfl
  | cons x xs ih =>
    intro s
    simp only [List.cons_append, printSuffixes, ih, List.append_assoc]

theorem run_comments (s : PState) (x : List El) :
    (printedComments ((run s x).1 ++ (flush (run s x).2).1)).Perm (s.sfx.map (·.2.2) ++ printedComments x) := by
  rw [← printEls_run]
  exact printedComments_printEls x s

/-- What is printed for a statement and the line break after it. -/
theorem stmt_run {X Y : List (List Byte)} {st : Station} {e : Expr} (hs : st.Cares X Y e) {cx : Cx} (hc : cx.chain = false)
    {ns : Bool} {m : Mode} {i : Nat} {y : List El} (h : Lays ns m i (fmt o cx e) y)
    (hcom : (printedComments y).Perm (texts e.comments)) {s : PState} (hf : Fresh i s) (b : Bool) (j : Nat)
    (rest : List El) (hr : ∀ z ∈ rest, z = .rnl) :
    ∃ A B C, (run s (y ++ .nl b j :: rest)).1 = A ++ B ++ C ∧
      printedToks A = [] ∧ printedComments A = X ++ st.ahead ∧
      Edits o.style (st.expr.tokens.map outTok) (printedToks B) ∧ (printedComments B).Perm (st.inside ++ Y) ∧
      printedToks C = [] ∧ printedComments C = st.behind := by
  obtain ⟨e', hR, ht⟩ := fmt_toks h
  have hed := rew_edits o _ _ _ hR
  rw [hs.tokens] at hed
  obtain ⟨y1, y2, y3, A, H, n, rfl, h1, h2, h3, h4⟩ := stmt_layout hs hc h
  have f1 := leading_fresh _ _ _ _ _ _ h1 hf
  have c1 := leading_run _ _ _ _ _ _ h1 hf
  have t1 := leading_noTok _ _ _ _ _ h1
  have t3 := trailing_noTok _ _ _ _ _ _ h3
  have p1 := Coms.leading A _ _ _ _ h1
  have p3 := Coms.trailing H n _ _ _ _ h3
  rw [h2] at p1
  rw [h4] at p3
  have p2 : (printedComments y2).Perm (st.inside ++ Y) := by
    have h := hcom.trans hs.all
    rw [printedComments_append, printedComments_append] at h
    have h' := ((p1.append_right (printedComments y2)).append p3).symm.trans h
    rw [List.perm_append_right_iff, List.perm_append_left_iff] at h'
    exact h'
  rw [printedToks_append, printedToks_append, t1, t3, List.nil_append, List.append_nil] at ht
  obtain ⟨xs, r1, r2⟩ := trailing_waits _ _ _ _ _ (run (run s y1).2 y2).2 _ h3
  have hrun : (run s (y1 ++ y2 ++ y3 ++ .nl b j :: rest)).1 =
      (run s y1).1 ++ ((run (run s y1).2 y2).1 ++ (flush (run (run s y1).2 y2).2).1) ++
        ((printSuffixes (flush (run (run s y1).2 y2).2).2 xs).1 ++
          ((printNl (printSuffixes (flush (run (run s y1).2 y2).2).2 xs).2 b j).1 ++
            (run (printNl (printSuffixes (flush (run (run s y1).2 y2).2).2 xs).2 b j).2 rest).1)) := by
    rw [show y1 ++ y2 ++ y3 ++ El.nl b j :: rest = y1 ++ (y2 ++ (y3 ++ ([.nl b j] ++ rest))) by simp,
      run_append, run_append, run_append, run_append, r1, run_single]
    generalize (run (run s y1).2 y2).2 = s2
    simp only [printEl, flush, printSuffixes_append]
    simp
  have hrest : ∀ (s : PState) (z : List El), (∀ e ∈ z, e = .rnl) → printedToks (run s z).1 = [] ∧
      printedComments (run s z).1 = [] := by
    intro s z hz
    induction z generalizing s with
    | nil => exact ⟨rfl, rfl⟩
    | cons e z ih =>
      have he := hz e (List.mem_cons_self ..)
      subst he
      obtain ⟨i1, i2⟩ := ih (printEl s .rnl).2 fun e he => hz e (List.mem_cons_of_mem _ he)
      simp only [run]
      rw [printedToks_append, printedComments_append, i1, i2]
      simp only [printEl, printText_eq, printedToks_append, printedComments_append, pending_comments]
      rw [show printedToks (pendingEls s) = [] from pending_noTok s]
      exact ⟨rfl, rfl⟩
  refine ⟨_, _, _, hrun, ?_, ?_, ?_, ?_, ?_, ?_⟩
  · rw [printedToks_run, t1]
  · rw [c1, h2]
  · rw [printedToks_append, flush_noTok, List.append_nil, printedToks_run, ht]
    exact hed
  · refine (run_comments _ _).trans ?_
    rw [f1.2.2.2]
    exact p2
  · rw [printedToks_append, printedToks_append, (hrest _ _ hr).1,
      (printSuffixes_spec xs _ .fresh fun _ => rfl).1, (printNl_noTok _ _ _ : printedToks _ = [])]
    rfl
  · rw [printedComments_append, printedComments_append, (hrest _ _ hr).2,
      (printSuffixes_spec xs _ .fresh fun _ => rfl).2.2.1, printNl_comments, r2, h4]
    simp

/-- The separator of statements is a line break, maybe with another one. -/
theorem sep_lines {top ns : Bool} {m : Mode} {i n : Nat} {y : List El} (h : Lays ns m i (stmtSep top n) y) :
    ∃ b rest, y = .nl b i :: rest ∧ ∀ z ∈ rest, z = .rnl := by
  unfold stmtSep at h
  split at h
  · split at h
    · obtain ⟨u, v, rfl, (rfl : u = _), (rfl : v = _)⟩ := h
      exact ⟨true, [.rnl], rfl, by simp⟩
    · split at h
      · cases h; exact ⟨true, [], rfl, nofun⟩
      · cases h; exact ⟨false, [], rfl, nofun⟩
  · split at h
    · cases h; exact ⟨true, [], rfl, nofun⟩
    · cases h; exact ⟨false, [], rfl, nofun⟩

/-- Statements are printed one after the other, with their comments. -/
theorem listing_comments (o : Opts) (cx : Cx) (top : Bool) : ∀ (X Y : List (List Byte)) (es : Exprs) (ss : List Station) (ns : Bool) (m : Mode)
    (i j : Nat) (s : PState) (x : List El), es ≠ .nil → (top = true → i = 0) → Fresh i s → es.Proper → VerbsL o es →
    Cared X Y ss es → Lays ns m i (fmtExprs o cx top true es) x →
    ∃ outs, (run s (x ++ [.nl false j])).1 = outs.flatten ∧ Recited o X Y ss outs
  | _, _, .nil, _, _, _, _, _, _, _, hn, _, _, _, _, _, _ => absurd rfl hn
  | _, _, .cons e es, [], _, _, _, _, _, _, _, _, _, _, _, hc, _ => by cases hc
  | X, Y, .cons e es, st :: ss, ns, m, i, j, s, x, _, hi, hs, hp, hv, hc, hx => by
    rw [fmtExprs, if_pos rfl] at hx
    obtain ⟨u, v, rfl, (rfl : u = _), y, z, rfl, hy, hz⟩ := hx
    rw [List.nil_append]
    rw [Exprs.Proper] at hp
    have hcom := Coms.fmt e { dir := true, eq := true, inArg := cx.inArg, effect := top || 0 < es.length }
      hp.1 (fun h => by cases h) hv.1 _ _ _ _ hy
    have hR := (begins_ends_run (fmt_begins o e _ _ _ _ _ hy) (fmt_ends o e _ _ _ _ _ hy) s)
    obtain ⟨a, r, e1, -, hR⟩ := hR
    cases es with
    | nil =>
      rw [fmtExprs] at hz
      cases hz
      cases ss with
      | cons => cases hc.2
      | nil =>
        rw [List.append_nil]
        obtain ⟨A, B, C, h1, h2⟩ := stmt_run hc.1 rfl hy hcom hs false j [] nofun
        refine ⟨[A ++ B ++ C], by rw [h1]; simp, ⟨⟨?_, A, B, C, rfl, h2⟩, trivial⟩⟩
        rw [← h1, run_append, run_single]
        obtain ⟨o', t, s', -, k1, -⟩ := hR.printNl false j
        dsimp only
        rw [e1, List.append_assoc, k1]
        exact ⟨pendingEls s ++ o' ++ [t], by simp⟩
    | cons f fs =>
      have hz' : ∃ sp w, z = sp ++ w ∧ Lays ns m i (stmtSep top (linesBefore f.tokens)) sp ∧
          Lays ns m i (fmtExprs o cx top true (.cons f fs)) w := by
        rw [fmtExprs, if_neg (by decide)] at hz
        obtain ⟨sp, w, rfl, hsp, hw⟩ := hz
        refine ⟨sp, w, rfl, hsp, ?_⟩
        rw [fmtExprs, if_pos rfl]
        exact ⟨[], w, rfl, rfl, hw⟩
      obtain ⟨sp, w, rfl, hsp, hw⟩ := hz'
      obtain ⟨b, rest, rfl, hrest⟩ := sep_lines hsp
      obtain ⟨o', t, ht, k1, k2⟩ := rest_sep hR hi hsp
      obtain ⟨outs, g1, g2⟩ := listing_comments o cx top [] [] (.cons f fs) ss ns m i j _ w (by simp) hi k2 hp.2 hv.2 hc.2 hw
      obtain ⟨A, B, C, h1, h2⟩ := stmt_run hc.1 rfl hy hcom hs b i rest hrest
      refine ⟨(A ++ B ++ C) :: outs, ?_, ⟨⟨?_, A, B, C, rfl, h2⟩, g2⟩⟩
      · rw [show y ++ (El.nl b i :: rest ++ w) ++ [El.nl false j] =
          (y ++ (.nl b i :: rest)) ++ (w ++ [.nl false j]) by simp, run_append, h1, List.flatten_cons, ← g1]
        dsimp only
        rw [run_append s y]
      · rw [← h1, run_append]
        dsimp only
        rw [e1, List.append_assoc, k1]
        refine ⟨pendingEls s ++ o' ++ t :: List.replicate (sepCount top (linesBefore f.tokens) - 1) .rnl, ?_⟩
        have : sepCount top (linesBefore f.tokens) = (sepCount top (linesBefore f.tokens) - 1) + 1 := by
          unfold sepCount; omega
        conv => lhs; rw [this, List.replicate_succ']
        simp

end Verif.Format
