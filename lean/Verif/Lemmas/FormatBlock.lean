import Verif.Lemmas.FormatParts

/-!
# The lines of a block
-/

namespace Verif.Format
open Verif.Syntax

theorem leading_fresh (cs : List Comment) : ∀ (ns : Bool) (m : Mode) (i : Nat) (s : PState)
    (x : List El), Lays ns m i (leadingDoc cs) x → Fresh i s → Fresh i (run s x).2 := by
  induction cs with
  | nil => intro ns m i s x h hs; cases h; exact hs
  | cons c cs ih =>
    intro ns m i s x h hs
    obtain ⟨u, v, rfl, (rfl : u = _), y, z, rfl, (rfl : y = _), hz⟩ := h
    rw [run_append, run_append]
    refine ih _ _ _ _ _ hz ?_
    have hr : Rest (run s [.comment c.text]).1 (run s [.comment c.text]).2 :=
      Ends.rest ⟨[], .comment c.text, [], rfl, rfl, by simp⟩ s
    have key : ∀ e, Fresh i (run (run s [.comment c.text]).2 [.nl e i]).2 := by
      intro e
      obtain ⟨o, t, s', -, -, h2, h3, h4, h5, -, h7⟩ := hr.printNl e i
      rw [run_single, h2]
      exact ⟨h3, h4, h5, h7⟩
    split
    · exact key false
    · exact key true

theorem suffixes_started (xs : List (Option Bool × Nat × List Byte)) (s : PState)
    (hs : s.started = true) : (printSuffixes s xs).2.started = true := by
  induction xs generalizing s with
  | nil => exact hs
  | cons x xs ih =>
    simp only [printSuffixes]
    refine ih _ ?_
    obtain ⟨l, i, t⟩ := x
    cases l <;> rfl

theorem nl_out (s : PState) (hs : s.started = true) (i : Nat) :
    ∃ c, (run s [.nl false i]).1 = c ++ [.rnl] ∧ printedToks c = [] ∧
      Fresh i (run s [.nl false i]).2 := by
  rw [run_single]
  have h : (flush s).2.started = true := suffixes_started _ _ hs
  refine ⟨(flush s).1, ?_, flush_noTok s, rfl, rfl, rfl, flush_sfx s⟩
  simp [printEl, printNl, h]

theorem leading_noTok (cs : List Comment) : ∀ (ns : Bool) (m : Mode) (i : Nat) (x : List El),
    Lays ns m i (leadingDoc cs) x → printedToks x = [] := by
  induction cs with
  | nil => intro ns m i x h; cases h; rfl
  | cons c cs ih =>
    intro ns m i x h
    obtain ⟨u, v, rfl, (rfl : u = _), y, z, rfl, (rfl : y = _), hz⟩ := h
    rw [printedToks_append, printedToks_append, ih _ _ _ _ hz]
    split <;> rfl

theorem trailing_noTok (cs : List Comment) : ∀ (n : Nat) (ns : Bool) (m : Mode) (i : Nat) (x : List El),
    Lays ns m i (trailingDoc n cs) x → printedToks x = [] := by
  induction cs with
  | nil => intro n ns m i x h; cases h; rfl
  | cons c cs ih =>
    intro n ns m i x h
    obtain ⟨u, v, rfl, (rfl : u = _), hz⟩ := h
    rw [printedToks_append, ih _ _ _ _ _ hz]
    rfl

theorem dangling_noTok : ∀ (cs : List Comment) (ns : Bool) (m : Mode) (i : Nat) (x : List El),
    Lays ns m i (danglingComments cs) x → printedToks x = []
  | [], _, _, _, _, h => by cases h; rfl
  | [c], _, _, _, _, h => by cases h; rfl
  | c :: d :: cs, ns, m, i, x, h => by
    obtain ⟨u, v, rfl, (rfl : u = _), y, z, rfl, (rfl : y = _), hz⟩ := h
    rw [printedToks_append, printedToks_append, dangling_noTok (d :: cs) _ _ _ _ hz]
    rfl

theorem danglingSoft_noTok (cs : List Comment) (ns : Bool) (m : Mode) (i : Nat) (x : List El)
    (h : Lays ns m i (danglingSoft cs) x) : printedToks x = [] := by
  unfold danglingSoft at h
  split at h
  · cases h; rfl
  · obtain ⟨m', -, u, v, rfl, ⟨y, z, rfl, (rfl : y = _), hz⟩, (rfl : v = _)⟩ := h
    rw [printedToks_append, printedToks_append, dangling_noTok _ _ _ _ _ hz]
    simp only [layLine]
    split <;> rfl

/-- The lines of a block in braces. -/
theorem block_run {o : Opts} {cx : Cx} {a : Ann} {l r : Token} {es : Exprs} {ns : Bool} {m : Mode}
    {i : Nat} {x : List El} (hne : es ≠ .nil) (hc : curlyCurly cx.inArg es = none)
    (ha : a.ordinary o = true)
    (h : Lays ns m i (fmt o cx (.braced a l es r)) x) (s : PState) :
    ∃ pre cs body post,
      (run s x).1 = pre ++ [.tok (outTok l)] ++ cs ++ [.rnl] ++ indentation (i + 1) ++ body ++
        [.rnl] ++ indentation i ++ [.tok (outTok r)] ++ post ∧
      Listing o false 1 (i + 1) es body ∧
      printedToks pre = [] ∧ printedToks cs = [] ∧ printedToks post = [] := by
  have hsup : suppressed o cx (.braced a l es r) = false := by
    unfold suppressed
    simp [Expr.ann, ordinary_dir ha cx.dir (.inl rfl), inSetting]
  have hb : bracedDoc cx a l es (fmtExprs o cx false true es) r =
      tokDoc l ⊹ hardBlock (fmtExprs o cx false true es) ⊹ tokDoc r := by
    unfold bracedDoc
    cases es with
    | nil => exact absurd rfl hne
    | cons e es => simp only [hc]
  rw [fmt, wrapDoc, hsup, hb] at h
  have hch : (cx.chain && (Expr.braced a l es r).isChain) = false := by
    simp [Expr.isChain]
  rw [hch, if_neg (by decide), if_neg (by decide)] at h
  obtain ⟨x1, y1, rfl, h1, x2, y2, rfl, h2, x3, x4, rfl, (rfl : x3 = _), h4⟩ := h
  obtain ⟨x5, y5, rfl, (rfl : x5 = _), y6, y7, rfl, h6, (rfl : y7 = _)⟩ := h2
  obtain ⟨u1, u2, rfl, ⟨w1, w2, rfl, (rfl : w1 = _), hw⟩, (rfl : u2 = _)⟩ := h6
  have e1 : x1 ++ ([.tok (outTok l)] ++ ((layLine ns m (i + 1) .hard ++ w2 ++ layLine ns m i .hard) ++
      [.tok (outTok r)]) ++ ([] ++ x4)) =
      x1 ++ ([.tok (outTok l)] ++ ([.nl false (i + 1)] ++ ((w2 ++ [.nl false i]) ++
        ([.tok (outTok r)] ++ x4)))) := by
    simp [layLine]
  have e2 : (if (Expr.braced a l es r).isBraced = true then Doc.nil
      else danglingSoft (Expr.braced a l es r).ann.dangling) = .nil := rfl
  rw [e1]
  clear e1 e2
  generalize hz : w2 ++ [El.nl false i] = z
  rw [run_append, run_append, run_append, run_append, run_append]
  dsimp only
  generalize (run s x1).2 = s1
  have ht : ∀ (s : PState) (t : Tok), run s [.tok t] = (pendingEls s ++ [.tok t],
      { s with started := true, space := false, ind := 0, emptyLine := false }) := by
    intro s t; rw [run_single]; exact printText_eq ..
  rw [ht s1]
  dsimp only
  obtain ⟨c, hc1, hc2, hF⟩ := nl_out
    { s1 with started := true, space := false, ind := 0, emptyLine := false } rfl (i + 1)
  rw [hc1]
  generalize hs2 : (run { s1 with started := true, space := false, ind := 0, emptyLine := false }
    [.nl false (i + 1)]).2 = s2 at hF
  obtain ⟨body, hb1, hb2, hb3⟩ := listing o cx false es ns m (i + 1) i s2 w2 hne (by simp) hF hw
  rw [hz] at hb1 hb3
  rw [hb1]
  generalize (run s2 z).2 = s3 at hb3
  rw [ht s3]
  dsimp only
  rw [hb3.pending]
  refine ⟨(run s x1).1 ++ pendingEls s1, c, body,
    (run { started := true, sfx := s3.sfx } x4).1, ?_, hb2, ?_, hc2, ?_⟩
  · simp only [List.append_assoc]
  · rw [printedToks_append, printedToks_run, leading_noTok _ _ _ _ _ h1]
    exact pending_noTok s1
  · rw [printedToks_run]
    exact trailing_noTok _ _ _ _ _ _ h4

end Verif.Format
