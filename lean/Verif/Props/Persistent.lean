import Verif.Props.Lines
import Verif.Props.Table
import Verif.Lemmas.FormatChain

/-!
# C53: persistent line breaks
-/

namespace Verif.Format
open Verif.Syntax Ex

/-- The document of an expression is part of the document of the file. -/
theorem always_root {o : Opts} {x : Root} (hs : rootSuppressed o x.es = false)
    (ho : x.es.ordinary o = true) {b : Expr} (hb : Withins b x.es) :
    Always (IsDoc o (fun e => Withins e x.es) b) (fmtRoot o x) := by
  rw [fmtRoot, hs, if_neg (by decide)]
  exact ((always_fmts o _ _ x.es {} true true (fun _ h => h) ho hb).left _).node _ _

theorem lineBreak_lines (ts : List Token) : lineBreakBefore ts = decide (0 < linesBefore ts) := by
  cases ts with
  | nil => rfl
  | cons t ts =>
    rw [Bool.eq_iff_iff, decide_eq_true_iff]
    simp only [lineBreakBefore, linesBefore, linesBeforeToken]
    rw [List.any_eq_true, List.length_pos_iff_exists_mem]
    simp only [List.mem_filter]

theorem isTestCall_titled {items : Items} (h : isTestCall items = true) : Titled items := by
  unfold isTestCall at h
  split at h
  · next x y hxy =>
    rw [Bool.and_eq_true] at h
    obtain ⟨h1, h2⟩ := h
    split at h1
    · next hx =>
      split at h2
      · next hy => exact ⟨x, y, _, _, _, _, _, _, _, _, hxy, hx, hy⟩
      · cases h2
    · cases h1
  · cases h

/-- The leading holes. -/
theorem split_holes {o : Opts} {holes : List Token} {x : Arg} {s : Option Token}
    {xs : List (Arg × Option Token)} (hx : x.isHole = false) : ∀ (ds : List ItemDoc), Formeds o ds →
    ds.map (fun d => (d.arg, d.sep)) = holes.map (fun t => (Arg.hole {}, some t)) ++ (x, s) :: xs →
    ∃ hs d ds', ds.takeWhile ItemDoc.isHole = hs ∧ ds.dropWhile ItemDoc.isHole = d :: ds' ∧
      d.arg = x ∧ d.sep = s ∧ ds'.map (fun d => (d.arg, d.sep)) = xs ∧ Formeds o (d :: ds') ∧
      (∀ d ∈ hs, Formed o d ∧ d.isHole = true) ∧ hs.map (fun d => (d.arg, d.sep)) =
        holes.map (fun t => (Arg.hole {}, some t)) := by
  induction holes with
  | nil =>
    intro ds hF he
    cases ds with
    | nil => cases he
    | cons d ds =>
      simp only [List.map_cons, List.map_nil, List.nil_append, List.cons.injEq, Prod.mk.injEq] at he
      obtain ⟨⟨h1, h2⟩, h3⟩ := he
      have hd : d.isHole = false := by
        unfold ItemDoc.isHole
        rw [h1]
        cases x <;> first | rfl | cases hx
      exact ⟨[], d, ds, by simp [List.takeWhile, hd], by simp [List.dropWhile, hd], h1, h2, h3, hF,
        by simp, rfl⟩
  | cons t ts ih =>
    intro ds hF he
    cases ds with
    | nil => cases he
    | cons d ds =>
      simp only [List.map_cons, List.cons_append, List.cons.injEq, Prod.mk.injEq] at he
      obtain ⟨⟨h1, h2⟩, h3⟩ := he
      obtain ⟨hs, d', ds', g1, g2, g3, g4, g5, g6, g7, g8⟩ := ih ds hF.2.2 h3
      have hd : d.isHole = true := by
        unfold ItemDoc.isHole
        rw [h1]
        rfl
      refine ⟨d :: hs, d', ds', by simp [List.takeWhile, hd, g1], by simp [List.dropWhile, hd, g2], g3, g4,
        g5, g6, ?_, by simp [h1, h2, g8]⟩
      intro e he
      rcases List.mem_cons.mp he with rfl | he
      · exact ⟨hF.1, hd⟩
      · exact g7 e he

/-- C53 for calls, `x[…]` and `x[[…]]`: wherever in a file (without skip and table directives) there is a
call with a line break in front of its first argument, or a blank line between arguments, every layout
keeps it: all arguments are on lines of their own, one level deeper than the closing delimiter, and after
a blank line if there is at least one in the source. Calls with a string and a block as arguments are
excepted, and arguments left out must not have comments. -/
theorem C53_arguments_partial (o : Opts) (f : Root) (m : Mode) (els : List El)
    (hs : rootSuppressed o f.es = false) (ho : f.es.ordinary o = true)
    (h : Lays false m 0 (fmtRoot o f) els)
    (a : Ann) (k : CallKind) (g : Expr) (aa : Ann) (l r : Token) (items : Items)
    (holes : List Token) (x : Arg) (s : Option Token) (xs : List (Arg × Option Token))
    (hb : Withins (.call a k g aa l items r) f.es) (hk : k = .call → ¬Titled items)
    (hi : items.entries = holes.map (fun t => (Arg.hole {}, some t)) ++ (x, s) :: xs)
    (hx : x.isHole = false) (hh : ∀ a s, (Arg.hole a, s) ∈ xs → a = {})
    (hbr : mustBreak o holes (x :: xs.map Prod.fst)) :
    ∃ pre out post, emit els = pre ++ out ++ post ∧ BrokenOut o l holes x s xs r out := by
  have ho' : ∀ cx : Cx, (Expr.call a k g aa l items r).ordinary o = true → cx.table = none →
      Always (fun d => ∃ hs d0 ds, d = brokenOut true l hs (d0 :: ds) r ∧
        (∀ d ∈ hs, Formed o d ∧ d.isHole = true) ∧ Formeds o (d0 :: ds) ∧ d0.arg = x ∧ d0.sep = s ∧
        ds.map (fun d => (d.arg, d.sep)) = xs ∧
        hs.map (fun d => (d.arg, d.sep)) = holes.map (fun t => (Arg.hole {}, some t)))
      (fmt o cx (.call a k g aa l items r)) := by
    intro cx hoy hcx
    have hF : Formeds o (fmtItems o { inArg := true } true items) := by
      refine fmtItems_formeds o _ true ⟨rfl, rfl, .inl ⟨rfl, rfl⟩, (fun h => by cases h)⟩ items ?_ ?_
      · simp only [Expr.ordinary, Bool.and_eq_true] at hoy
        exact hoy.2
      · intro b t ht
        rw [hi] at ht
        rcases List.mem_append.mp ht with ht | ht
        · obtain ⟨t', -, ht⟩ := List.mem_map.mp ht
          simp only [Prod.mk.injEq, Arg.hole.injEq] at ht
          exact ht.1.symm
        · rcases List.mem_cons.mp ht with ht | ht
          · simp only [Prod.mk.injEq] at ht
            rw [← ht.1] at hx
            cases hx
          · exact hh b t ht
    obtain ⟨hs, d0, ds, g1, g2, g3, g4, g5, g6, g7, g8⟩ :=
      split_holes hx _ hF (by rw [fmtItems_entries, hi])
    rw [fmt]
    refine always_wrap (Always.right (Always.node ?_ _ _) _) hoy
    have htab : cx.table.getD (hasDirective o cx.dir a .table || inSetting o.table g) = false := by
      simp only [Expr.ordinary, Bool.and_eq_true] at hoy
      rw [hcx, Option.getD_none, ordinary_dir hoy.1.1.1 _ (.inr rfl), Bool.false_or]
      exact (listed_setting (by simpa using hoy.1.1.2)).2
    rw [htab, if_neg (by simp)]
    refine Always.self ⟨hs, d0, ds, ?_, g7, g6, g3, g4, g5, g8⟩
    unfold argsDoc
    rw [if_neg, if_neg]
    · dsimp only
      rw [g1, g2]
      have hsl : ∀ t ∈ holes, ∃ d ∈ hs, d.sepLines = linesBefore [t] := by
        intro t ht
        have : (Arg.hole {}, some t) ∈ hs.map (fun d => (d.arg, d.sep)) := by
          rw [g8]; exact List.mem_map.mpr ⟨t, ht, rfl⟩
        obtain ⟨d, hd, he⟩ := List.mem_map.mp this
        simp only [Prod.mk.injEq] at he
        exact ⟨d, hd, by unfold ItemDoc.sepLines; rw [he.2]; rfl⟩
      have hal : ∀ y ∈ x :: xs.map Prod.fst, ∃ d ∈ d0 :: ds, d.lines = linesBefore y.tokens := by
        intro y hy
        rcases List.mem_cons.mp hy with rfl | hy
        · exact ⟨d0, by simp, by unfold ItemDoc.lines; rw [g3]⟩
        · rw [← g5, List.map_map] at hy
          obtain ⟨d, hd, rfl⟩ := List.mem_map.mp hy
          exact ⟨d, by simp [hd], rfl⟩
      split
      · rfl
      · next hno =>
        rw [if_pos]
        simp only [Bool.or_eq_true, List.any_eq_true, decide_eq_true_eq, not_or, not_exists, not_and]
          at hno
        unfold argsBreak
        rcases hbr with ⟨hp, hbr⟩ | ⟨y, hy, hbr⟩ | ⟨t, ht, hbr⟩
        · rw [hp, Bool.true_and, Bool.or_eq_true]
          rcases hbr with hbr | ⟨t, ht, hbr⟩
          · right
            rw [lineBreak_lines] at hbr
            have := of_decide_eq_true hbr
            simp only [ItemDoc.lines, g3]
            exact decide_eq_true this
          · left
            obtain ⟨d, hd, he⟩ := hsl t ht
            rw [lineBreak_lines] at hbr
            exact List.any_eq_true.mpr ⟨d, hd, by rw [he]; simpa using hbr⟩
        · obtain ⟨d, hd, he⟩ := hal y hy
          have := hno.2 d hd
          rw [he] at this
          rw [← blank_lines] at hbr
          omega
        · obtain ⟨d, hd, he⟩ := hsl t ht
          have := hno.1 d hd
          rw [he] at this
          rw [← blank_lines] at hbr
          omega
    · rintro ⟨h1, h2⟩
      exact hk h1 (isTestCall_titled h2)
    · intro hnil
      rw [List.isEmpty_iff] at hnil
      rw [hnil] at g2
      cases g2
  have hC := (always_root hs ho hb).trans (Q := _) (fun d' hd' => by
    obtain ⟨hoy, cx, hcx, rfl, -⟩ := hd'
    exact ho' cx hoy hcx.1)
  obtain ⟨d', m', i, y, ⟨hs, d0, ds, rfl, q1, q2, q3, q4, q5, q6⟩, hy, p, q, rfl⟩ := hC.lays_soft (by
    rintro d' ⟨_, _, _, rfl, -⟩
    rfl) h
  rw [emit, printEls_run, run_append, run_append]
  dsimp only
  obtain ⟨out, e1, e2⟩ := broken_run q1 q2 (by rw [q3]; exact hx) hy (run {} p).2
  have e3 : (hs.flatMap fun d => d.sep.toList) = holes := by
    have := congrArg (List.flatMap fun (p : Arg × Option Token) => p.2.toList) q6
    rw [List.flatMap_map, List.flatMap_map] at this
    simpa using this
  rw [q3, q4, q5, e3] at e2
  refine ⟨(run {} p).1 ++ pendingEls (run {} p).2, out, (run (run (run {} p).2 y).2 q).1 ++
    (flush (run (run (run {} p).2 y).2 q).2).1, ?_, e2⟩
  rw [e1]
  simp only [List.append_assoc]

theorem paramsTail_eq : ∀ ds : List ItemDoc, paramsTail ds = argsTail ds
  | [] => rfl
  | d :: ds => by
    rw [paramsTail, argsTail, paramsTail_eq ds]
    congr 2
    by_cases h : d.lines > 1
    · rw [if_pos h, if_neg (by omega)]
    · rw [if_neg h, if_pos (by omega)]

theorem paramsJoin_eq (ds : List ItemDoc) : paramsJoin ds = argsJoin ds := by
  cases ds with
  | nil => rfl
  | cons d ds => rw [paramsJoin, argsJoin, paramsTail_eq]

/-- C53 for function definitions: wherever in a file (without skip and table directives) there is a
function definition with a line break in front of its first parameter, every layout keeps it: all
parameters are on lines of their own, one level deeper than the closing parenthesis, and after a blank
line if there is at least one in the source. -/
theorem C53_parameters (o : Opts) (f : Root) (m : Mode) (els : List El)
    (hs : rootSuppressed o f.es = false) (ho : f.es.ordinary o = true)
    (h : Lays false m 0 (fmtRoot o f) els)
    (a : Ann) (kw : Token) (pa : Ann) (l r : Token) (items : Items) (e : Expr)
    (x : Arg) (s : Option Token) (xs : List (Arg × Option Token))
    (hb : Withins (.func a kw pa l items r e) f.es)
    (hi : items.entries = (x, s) :: xs) (hh : ∀ a s, (Arg.hole a, s) ∈ xs → a = {})
    (hp : o.persistent = true) (hbr : onNewLine x.tokens = true) :
    ∃ pre out post, emit els = pre ++ out ++ post ∧ BrokenOut o l [] x s xs r out := by
  have hx : x.isHole = false := by
    cases x <;> first | rfl | cases hbr
  have ho' : ∀ cx : Cx, (Expr.func a kw pa l items r e).ordinary o = true →
      Always (fun d => ∃ d0 ds, d = .group true (tokDoc l ⊹ softBlock (paramsJoin (d0 :: ds)) ⊹ tokDoc r) ∧
        Formeds o (d0 :: ds) ∧ d0.arg = x ∧ d0.sep = s ∧ ds.map (fun d => (d.arg, d.sep)) = xs)
      (fmt o cx (.func a kw pa l items r e)) := by
    intro cx hoy
    have hF : Formeds o (fmtItems o (plainCx cx) false items) := by
      refine fmtItems_formeds o _ false (At.plain cx) items ?_ ?_
      · simp only [Expr.ordinary, Bool.and_eq_true] at hoy
        exact hoy.1.2
      · intro b t ht
        rw [hi] at ht
        rcases List.mem_cons.mp ht with ht | ht
        · simp only [Prod.mk.injEq] at ht
          rw [← ht.1] at hx
          cases hx
        · exact hh b t ht
    have he := fmtItems_entries o (plainCx cx) false items
    rw [hi] at he
    rw [fmt]
    refine always_wrap ?_ hoy
    generalize fmtItems o (plainCx cx) false items = ds at hF he
    cases ds with
    | nil => cases he
    | cons d0 ds =>
      simp only [List.map_cons, List.cons.injEq, Prod.mk.injEq] at he
      obtain ⟨⟨h1, h2⟩, h3⟩ := he
      have key : Always (fun d => ∃ d0 ds, d = .group true (tokDoc l ⊹ softBlock (paramsJoin (d0 :: ds)) ⊹ tokDoc r) ∧
          Formeds o (d0 :: ds) ∧ d0.arg = x ∧ d0.sep = s ∧ ds.map (fun d => (d.arg, d.sep)) = xs)
          (paramsDoc o pa l (d0 :: ds) r) := by
        unfold paramsDoc
        refine Always.node (Always.self ⟨d0, ds, ?_, hF, h1, h2, h3⟩) _ _
        have : leadingNewline d0.arg.tokens = true := by
          rw [h1]
          cases hx : x.tokens with
          | nil => rw [hx] at hbr; cases hbr
          | cons t ts => rw [hx] at hbr; exact hbr
        simp only [hp, this]
        rfl
      refine Always.group (Always.right (Always.left ?_ _) _) _
      split
      · exact key.noSoft
      · exact key
  have hC := (always_root hs ho hb).trans (Q := _) (fun d' hd' => by
    obtain ⟨hoy, cx, -, rfl, -⟩ := hd'
    exact ho' cx hoy)
  obtain ⟨d', m', i, y, ⟨d0, ds, rfl, q2, q3, q4, q5⟩, hy, p, q, rfl⟩ := hC.lays_soft (by
    rintro d' ⟨_, _, rfl, -⟩
    rfl) h
  have hy' : Lays false m' i (brokenOut true l [] (d0 :: ds) r) y := by
    obtain ⟨m2, hm, u, v, rfl, hu, w, z, rfl, hw, hz⟩ := hy
    rw [paramsJoin_eq] at hw
    exact ⟨m2, hm, u, w ++ z, rfl, hu, [], w ++ z, rfl, rfl, [], w ++ z, rfl, rfl, w, z, rfl, hw, hz⟩
  rw [emit, printEls_run, run_append, run_append]
  dsimp only
  obtain ⟨out, e1, e2⟩ := broken_run (fun d hd => by cases hd) q2 (by rw [q3]; exact hx) hy' (run {} p).2
  rw [q3, q4, q5] at e2
  refine ⟨(run {} p).1 ++ pendingEls (run {} p).2, out, (run (run (run {} p).2 y).2 q).1 ++
    (flush (run (run (run {} p).2 y).2 q).2).1, ?_, e2⟩
  rw [e1]
  simp only [List.append_assoc]

/-- C53 for chains: wherever in a file (without skip and table directives) there is a chain of operators
with a line break in front of its first right operand, every layout keeps it: each operator is followed by
a line break, and its right operand is on lines of its own, after a blank line if there is at least one in
the source. -/
theorem C53_chain (o : Opts) (f : Root) (m : Mode) (els : List El)
    (hs : rootSuppressed o f.es = false) (ho : f.es.ordinary o = true)
    (h : Lays false m 0 (fmtRoot o f) els)
    (a : Ann) (x y : Expr) (op op₁ : Token) (y₁ : Expr) (ys : List (Token × Expr))
    (hb : Withins (.binary a x op y) f.es)
    (hmax : ∀ a' op' y', Withins (.binary a' (.binary a x op y) op' y') f.es → chains op'.kind = false)
    (ht : (Expr.binary a x op y).chainTail = (op₁, y₁) :: ys)
    (hp : o.persistent = true) (hbr : onNewLine y₁.tokens = true) :
    ∃ pre head i rest post, emit els = pre ++ head ++ rest ++ post ∧
      Statement o {} (Expr.binary a x op y).chainHead head ∧ Operands o i ((op₁, y₁) :: ys) rest := by
  have hk : chains op.kind = true := by
    cases hk : chains op.kind with
    | true => rfl
    | false => rw [Expr.chainTail, hk] at ht; cases ht
  have hfr : leadingNewline (firstRight x y).tokens = true := by
    obtain ⟨op', ys', he⟩ := firstRight_tail x y op a hk
    rw [he] at ht
    simp only [List.cons.injEq, Prod.mk.injEq] at ht
    rw [ht.1.2]
    cases hx : y₁.tokens with
    | nil => rw [hx] at hbr; cases hbr
    | cons t ts => rw [hx] at hbr; exact hbr
  have hC := (always_root hs ho hb).trans (Q := fun d => ∃ cx, d = .group true (chainDoc o cx x op y))
    (fun d' hd' => by
      obtain ⟨hoy, cx, -, rfl, hch⟩ := hd'
      rw [chainDoc_eq hk]
      refine always_wrap ?_ hoy
      have hc : cx.chain = false := by
        cases hc : cx.chain with
        | false => rfl
        | true =>
          obtain ⟨a', op', y', h1, h2⟩ := hch hc
          rw [chains_eq, hmax _ _ _ h2] at h1
          cases h1
      rw [hc, if_neg (by decide), hp, hfr]
      exact Always.self ⟨cx, rfl⟩)
  obtain ⟨d', m', i, z, ⟨cx, rfl⟩, hz, p, q, rfl⟩ := hC.lays_soft (by
    rintro d' ⟨_, rfl⟩
    rfl) h
  rw [emit, printEls_run, run_append, run_append]
  dsimp only
  obtain ⟨k, out, post, e1, -, head, rest, rfl, e2, e3⟩ := chainGroup_run (b := a) hk hz (run {} p).2
  rw [ht] at e3
  refine ⟨(run {} p).1 ++ pendingEls (run {} p).2, head, k, rest, post ++ (run (run (run {} p).2 z).2 q).1 ++
    (flush (run (run (run {} p).2 z).2 q).2).1, ?_, e2, e3⟩
  rw [e1]
  simp only [List.append_assoc]

/-- C53 for assignments and formulas: wherever in a file (without skip and table directives) there is a
line break in front of the right side of `<-`, `<<-`, `=` or `~`, every layout keeps it: the right side is
on lines of its own. -/
theorem C53_assignment (o : Opts) (f : Root) (m : Mode) (els : List El)
    (hs : rootSuppressed o f.es = false) (ho : f.es.ordinary o = true)
    (h : Lays false m 0 (fmtRoot o f) els)
    (a : Ann) (x y : Expr) (op : Token) (hb : Withins (.binary a x op y) f.es)
    (hk : keepsBreak op.kind = true) (hp : o.persistent = true) (hbr : onNewLine y.tokens = true) :
    ∃ pre p op' cs i out post,
      emit els = pre ++ [.tok (outTok op')] ++ cs ++ [.rnl] ++ indentation (i + 1) ++ out ++ post ∧
      Operator o p op op' ∧ printedToks cs = [] ∧ Statement o (p.operand op.kind) y out := by
  have hC := (always_root hs ho hb).trans (Q := fun d => ∃ cx c, d =
      .tok (assignTok o cx op) ⊹ .indent (.line .hard ⊹ fmt o { opCx cx op.kind with aligned := c } y))
    (fun d' hd' => by
      obtain ⟨hoy, cx, -, rfl, -⟩ := hd'
      have h1 : isSticky op.kind = false := by cases h : op.kind <;> simp_all [keepsBreak, isSticky]
      have h2 : isAssignOp op.kind = true := by cases h : op.kind <;> simp_all [keepsBreak, isAssignOp]
      have h3 : assignBreak o op.kind y = true := by
        unfold assignBreak
        have : leadingNewline y.tokens = true := by
          cases hx : y.tokens with
          | nil => rw [hx] at hbr; cases hbr
          | cons t ts => rw [hx] at hbr; exact hbr
        rw [hp, this]
        cases h : op.kind <;> simp_all [keepsBreak]
      have h4 : hasDirective o cx.dir a .table = false := by
        simp only [Expr.ordinary, Bool.and_eq_true] at hoy
        exact ordinary_dir hoy.1.1 _ (.inr rfl)
      rw [fmt]
      refine always_wrap ?_ hoy
      simp only [h1, h2, h3, h4]
      exact Always.group (Always.right (Always.right (Always.self ⟨cx, true, rfl⟩) _) _) _)
  obtain ⟨d', ns, m', i, z, ⟨cx, c, rfl⟩, ⟨u, v, rfl, (rfl : u = _), w, t, rfl, (rfl : w = _), ht⟩, p, q, rfl⟩ :=
    hC.lays h
  rw [emit, printEls_run, run_append, run_append, run_append, run_tok]
  dsimp only
  have hl : layLine ns m' (i + 1) .hard = [.nl false (i + 1)] := rfl
  rw [hl, run_append]
  obtain ⟨cs, c1, c2, c3⟩ := nl_out
    { (run {} p).2 with started := true, space := false, ind := 0, emptyLine := false } rfl (i + 1)
  rw [c1]
  generalize (run { (run {} p).2 with started := true, space := false, ind := 0, emptyLine := false }
    [.nl false (i + 1)]).2 = s3 at c3
  dsimp only
  obtain ⟨last, k1, k2, k3, k4⟩ := fmt_run ht s3
  obtain ⟨out, w, e1, -, e2⟩ := k3.closes k2
  have hop : Operator o { assign := cx.eq } op (newOp o.style cx.eq op) := by
    unfold Operator newOp
    obtain ⟨k, lead, text, trail⟩ := op
    cases k <;> cases o.style <;> simp <;> cases cx.eq <;> simp
  refine ⟨(run {} p).1 ++ pendingEls (run {} p).2, { assign := cx.eq }, newOp o.style cx.eq op, cs, i, out,
    w ++ (run (run s3 t).2 q).1 ++ (flush (run (run s3 t).2 q).2).1, ?_, hop, c2, ?_⟩
  · rw [k1, c3.pending, e1, outTok_newOp]
    simp only [List.append_assoc]
    rfl
  · refine fmt_statement ?_ ht k4 e2
    refine ⟨rfl, ?_, .inl ⟨rfl, rfl⟩, (fun h => by cases h)⟩
    show ((match op.kind with | .assign | .equal | .wat => true | _ => false) && cx.eq) =
      (cx.eq && (op.kind == .equal || op.kind == .assign || op.kind == .wat))
    cases op.kind <;> cases cx.eq <;> rfl

/-! ## Examples -/

namespace Ex

/-- `f(,` newline `a, b,` two blank lines `c = ,)` -/
def brokenItems : Items :=
  .cons (.hole {}) com (.cons (val (id (tn .ident "a"))) com (.cons (val (id (ts .ident "b"))) com
    (.cons (.name {} {} (id (after 3 .ident "c")) (ts .equal "=")) com (.last (.hole {})))))

/-- The call. -/
def brokenCall : Expr :=
  .call {} .call (id (tk .ident "f")) {} (tk .lParen "(") brokenItems (tk .rParen ")")

/-- `x` of `g <-`, newline, `x |>`, newline, `y |>`, two blank lines, `z` -/
def brokenChain : Expr :=
  .binary {} (.binary {} (id (tn .ident "x")) (ts .pipe "|>") (id (tn .ident "y"))) (ts .pipe "|>")
    (id (after 3 .ident "z"))

/-- The parameters of `function(`, newline, `p, q) 1` -/
def brokenParams : Items :=
  .cons (val (id (tn .ident "p"))) com (.last (val (id (ts .ident "q"))))

/-- The function. -/
def brokenFunc : Expr :=
  .func {} (ts .functionKw "function") {} (tk .lParen "(") brokenParams (tk .rParen ")")
    (num (ts .rDoubleLiteral "1"))

/-- All of them. -/
def brokenProg : Root := file [brokenCall,
  .binary {} (id (tn .ident "g")) (ts .assign "<-") brokenChain,
  .binary {} (id (tn .ident "h")) (ts .assign "<-") brokenFunc]

end Ex

example : rootSuppressed (opts .arrow []) brokenProg.es = false := by decide
example : brokenProg.es.ordinary (opts .arrow []) = true := by decide
example : text (opts .arrow []) brokenProg true true = tx (
    "f(,\n\ta,\n\tb,\n\n\tc = ,\n)\n" ++
    "g <-\n\tx |>\n\ty |>\n\n\tz\n" ++
    "h <- function(\n\tp,\n\tq\n) {\n\t1\n}\n") := by decide +kernel
example : Withins brokenCall brokenProg.es := .inl (.inl rfl)
example : ¬Titled brokenItems := by
  rintro ⟨x, y, _, _, _, _, _, _, _, _, h, -⟩
  cases h
example : brokenItems.entries = [com].map (fun t => (Arg.hole {}, some t)) ++
    (val (Ex.id (tn .ident "a")), some com) :: [(val (Ex.id (ts .ident "b")), some com),
      (.name {} {} (Ex.id (after 3 .ident "c")) (ts .equal "="), some com), (.hole {}, none)] := rfl
example : mustBreak (opts .arrow []) [com] [val (Ex.id (tn .ident "a"))] := .inl ⟨rfl, .inl rfl⟩
example : Withins brokenChain brokenProg.es := .inr (.inl (.inr (.inr (.inl rfl))))
example : brokenChain.chainTail = [(ts .pipe "|>", Ex.id (tn .ident "y")),
    (ts .pipe "|>", Ex.id (after 3 .ident "z"))] := rfl
example : onNewLine (Ex.id (tn .ident "y")).tokens = true := rfl
example : ∀ a' op' y', Withins (.binary a' brokenChain op' y') brokenProg.es → chains op'.kind = false := by
  intro a' op' y' h
  simp [brokenProg, file, list, brokenCall, brokenItems, brokenChain, brokenFunc, brokenParams, val, Ex.id, num,
    Withins, Within, WithinItems, WithinArg] at h
example : Withins brokenFunc brokenProg.es := .inr (.inr (.inl (.inr (.inr (.inl rfl)))))
example : onNewLine brokenChain.tokens = true := rfl

/-! ## Persistent line breaks that are removed -/

namespace Ex

/-- `test_that(`, newline, `"t", { a })`. -/
def titledCall : Expr :=
  .call {} .call (id (tk .ident "test_that")) {} (tk .lParen "(")
    (.cons (val (.str {} (tn .stringOpen "\"") (some (tk .stringContent "t")) (tk .stringClose "\""))) com
      (.last (val (.braced {} (ts .lCurly "{") (list [id (ts .ident "a")]) (ts .rCurly "}")))))
    (tk .rParen ")")

/-- `f(`, newline, `a)` -/
def innerCall : Expr :=
  .call {} .call (id (tn .ident "f")) {} (tk .lParen "(") (.last (val (id (tn .ident "a")))) (tk .rParen ")")

/-- `tribble(`, newline, `f(`, newline, `a), b)` -/
def tableCall : Expr :=
  .call {} .call (id (tk .ident "tribble")) {} (tk .lParen "(")
    (.cons (val innerCall) com (.last (val (id (ts .ident "b"))))) (tk .rParen ")")

end Ex

/-- "A persistent line break will never be removed by Air" is false for calls with a string and a block: the
line break before the first argument is removed even if there is room. -/
theorem C53_titled_removed : ∃ (o : Opts) (f : Root) (els : List El), o.persistent = true ∧
    rootSuppressed o f.es = false ∧ f.es.ordinary o = true ∧ Lays false .expanded 0 (fmtRoot o f) els ∧
    f = file [titledCall] ∧ render (emit els) = tx "test_that(\"t\", {\n\ta\n})\n" :=
  ⟨opts .arrow [], file [titledCall], _, rfl, by decide, by decide, lays_fmtRoot _ _ true _ _, rfl,
    by decide +kernel⟩

/-- "A persistent line break will never be removed by Air" is false in tables: inside of a cell there are no
line breaks. -/
theorem C53_table_removed : ∃ (o : Opts) (f : Root) (els : List El), o.persistent = true ∧
    rootSuppressed o f.es = false ∧ Withins innerCall f.es ∧ Lays false .expanded 0 (fmtRoot o f) els ∧
    f = file [tableCall] ∧ render (emit els) = tx "tribble(\n\tf(a) , b\n)\n" :=
  ⟨opts .arrow [], file [tableCall], lay true true false .expanded 0 (fmtRoot (opts .arrow []) (file [tableCall])),
    rfl, by decide, .inl (.inr (.inr (.inl (.inl rfl)))), lay_lays _ _ _ _ _ _ (by decide +kernel), rfl,
    by decide +kernel⟩

end Verif.Format
