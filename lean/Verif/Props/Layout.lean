import Verif.Props.Persistent
import Verif.Lemmas.FlatChain
import Verif.Lemmas.TypesetsAll

/-!
# C61: lists on one line or on lines of their own
-/

namespace Verif.Format
open Verif.Syntax Ex

theorem titled_isTestCall {items : Items} (h : Titled items) : isTestCall items = true := by
  obtain ⟨x, y, a, op, c, cl, b, l, es, r, h1, h2, h3⟩ := h
  simp [isTestCall, h1, h2, h3]

theorem any_all {a : Ann} (h : a.any = false) : a.all = [] := by
  obtain ⟨l, d, t⟩ := a
  simp only [Ann.any, Bool.not_eq_false', Bool.and_eq_true, List.isEmpty_iff] at h
  simp [Ann.all, h.1.1, h.1.2, h.2]

theorem groupableBraces_huggable {a : Ann} {l r : Token} {es : Exprs} (h : groupableBraces a true es = true) :
    Huggable (.braced a l es r) ∧
    ∀ b kw pa pl items pr, Huggable (.func b kw pa pl items pr (.braced a l es r)) := by
  cases es with
  | nil =>
    simp only [groupableBraces, Bool.not_eq_true', List.isEmpty_eq_false_iff] at h
    exact ⟨h, fun _ _ _ _ _ _ => h⟩
  | cons e es =>
    have : ∀ ia il ea t ir, Exprs.cons e es ≠
        .cons (.braced ia il (.cons (.atom ea .rIdentifier t) .nil) ir) .nil := by
      intro ia il ea t ir he
      rw [he] at h
      simp [groupableBraces, curlyCurly] at h
    exact ⟨this, fun _ _ _ _ _ _ => this⟩

theorem groupable_huggable {e : Expr} (h : groupable e = true) : Huggable e := by
  rw [groupable.eq_def] at h
  split at h
  · exact (groupableBraces_huggable h).1
  · exact (groupableBraces_huggable h).2 _ _ _ _ _ _
  · next a kw pa l items r b hb =>
    rw [Huggable.eq_def]
    split
    · next heq => cases heq
    · next heq => cases heq
    · next heq => cases heq; exact absurd rfl (hb _ _ _ _)
    · next heq => cases heq; exact absurd rfl (hb _ _ _ _)
    · trivial
    · next hn => exact hn _ _ _ _ _ _ _ rfl
  · cases h

theorem entries_args : ∀ items : Items, items.entries.map Prod.fst = items.args
  | .nil => rfl
  | .last _ => rfl
  | .cons x s xs => by simp [Items.entries, Items.args, entries_args xs]

theorem groupLast_mayHug {items : Items} {holes : List Token} {x : Arg} {s : Option Token}
    {xs : List (Arg × Option Token)}
    (hi : items.entries = holes.map (fun t => (Arg.hole {}, some t)) ++ (x, s) :: xs)
    (h : groupLast items = true) : mayHug x xs := by
  have ha := congrArg (List.map Prod.fst) hi
  rw [entries_args, List.map_append] at ha
  unfold groupLast at h
  rw [ha, List.getLast?_append] at h
  have : ∃ y, (x :: xs.map Prod.fst).getLast? = some y := by
    rw [← Option.isSome_iff_exists]
    simp
  obtain ⟨y, hy⟩ := this
  rw [List.map_cons, hy] at h
  simp only [Option.some_or, Bool.and_eq_true, Bool.not_eq_true'] at h
  obtain ⟨⟨h1, h2⟩, h3⟩ := h
  cases hv : y.value with
  | none => rw [hv] at h3; cases h3
  | some e =>
    rw [hv] at h3
    refine .inl ⟨y, e, hy, hv, groupable_huggable h3, ?_⟩
    rintro (h | h)
    · exact h (any_all h1)
    · cases y <;> first | exact h.elim | exact h (any_all h2)

theorem hugging_mayHug {r : Token} {d : ItemDoc} {ds : List ItemDoc} {x : Arg} {xs : List (Arg × Option Token)}
    (hx : d.arg = x) (hxs : ds.map (fun d => (d.arg, d.sep)) = xs) (h : hugging r (d :: ds) = true) :
    mayHug x xs := by
  cases ds with
  | cons e ds => simp [hugging] at h
  | nil =>
    subst hx hxs
    refine .inr ⟨rfl, ?_⟩
    cases ha : d.arg with
    | val a e =>
      simp only [hugging, ha, Bool.and_eq_true] at h
      cases e with
      | call b k f aa l items r => exact ⟨a, b, k, f, aa, l, items, r, rfl⟩
      | _ => exact absurd h.2 (by simp)
    | _ => simp [hugging, ha] at h

theorem seps_holes {hs : List ItemDoc} {holes : List Token}
    (q6 : hs.map (fun d => (d.arg, d.sep)) = holes.map (fun t => (Arg.hole {}, some t))) :
    (hs.flatMap fun d => d.sep.toList) = holes ∧ ∀ d ∈ hs, d.sep.isSome = true := by
  constructor
  · have := congrArg (List.flatMap fun (p : Arg × Option Token) => p.2.toList) q6
    rw [List.flatMap_map, List.flatMap_map] at this
    simpa using this
  · intro d hd
    have : (d.arg, d.sep) ∈ holes.map (fun t => (Arg.hole {}, some t)) := by
      rw [← q6]
      exact List.mem_map_of_mem hd
    obtain ⟨t, -, ht⟩ := List.mem_map.mp this
    simp only [Prod.mk.injEq] at ht
    rw [← ht.2]
    rfl

/-- What is printed for a part of the file is part of what is printed. -/
theorem emit_part {p y q out w : List El}
    (h : (run (run {} p).2 y).1 = pendingEls (run {} p).2 ++ out ++ w) :
    ∃ pre post, emit (p ++ (y ++ q)) = pre ++ out ++ post := by
  rw [emit, printEls_run, run_append, run_append]
  dsimp only
  rw [h]
  exact ⟨(run {} p).1 ++ pendingEls (run {} p).2, w ++ (run (run (run {} p).2 y).2 q).1 ++
    (flush (run (run (run {} p).2 y).2 q).2).1, by simp only [List.append_assoc]⟩

/-- Only the last entry may end without a separator. -/
theorem formeds_clean {o : Opts} : ∀ (ds : List ItemDoc), Formeds o ds →
    (∀ y, (ds.map fun d => (d.arg, d.sep)).getLast? = some (y, none) → y.endsClean = true) →
    ∀ e ∈ ds, e.clean
  | [], _, _ => by simp
  | d :: ds, hF, h => by
    intro e he
    rcases List.mem_cons.mp he with rfl | he
    · cases hs : e.sep with
      | some t => exact .inl (by rw [hs]; rfl)
      | none =>
        have := hF.2.1 hs
        subst this
        exact .inr (h _ (by simp [hs]))
    · refine formeds_clean ds hF.2.2 (fun y hy => h y ?_) e he
      rw [List.map_cons]
      cases ds with
      | nil => cases he
      | cons d' ds => simpa using hy

/-- C61 for calls, `x[…]` and `x[[…]]`: wherever in a file (without skip and table directives) there is a
call, the printer either puts all its arguments on lines of their own, one level deeper than the closing
delimiter, or each on the line on which the one before ends. In the second case everything from the opening
to the closing delimiter is on one line, unless the last argument is a function or a block without
comments of its own, or the only argument is a call, or the arguments are a string and a block. In these
cases the last argument must not end with the operand of a unary operator that has comments; and a string
and a block are never put on lines of their own. -/
theorem C61_arguments (o : Opts) (f : Root) (els : List El)
    (hs : rootSuppressed o f.es = false) (ho : f.es.ordinary o = true)
    (h : Typesets .expanded 0 (fmtRoot o f) els)
    (a : Ann) (k : CallKind) (g : Expr) (aa : Ann) (l r : Token) (items : Items)
    (holes : List Token) (x : Arg) (s : Option Token) (xs : List (Arg × Option Token))
    (hb : Withins (.call a k g aa l items r) f.es)
    (hi : items.entries = holes.map (fun t => (Arg.hole {}, some t)) ++ (x, s) :: xs)
    (hx : x.isHole = false) (hh : ∀ a s, (Arg.hole a, s) ∈ xs → a = {})
    (hc : (¬(k = .call ∧ Titled items) ∧ ¬mayHug x xs) ∨ ∀ y, ((x, s) :: xs).getLast? = some (y, none) → y.endsClean = true) :
    ∃ pre out post, emit els = pre ++ out ++ post ∧
      ((¬(k = .call ∧ Titled items) ∧ BrokenOut o l holes x s xs r out) ∨
       (Joined o l holes x s xs r out ∧
         (¬(k = .call ∧ Titled items) → ¬mayHug x xs → oneLine out))) := by
  have hhole : ∀ a s, (Arg.hole a, s) ∈ items.entries → a = {} := by
    intro b t ht
    rw [hi] at ht
    rcases List.mem_append.mp ht with ht | ht
    · obtain ⟨t', -, ht⟩ := List.mem_map.mp ht
      simp only [Prod.mk.injEq, Arg.hole.injEq] at ht
      exact ht.1.symm
    · rcases List.mem_cons.mp ht with ht | ht
      · simp only [Prod.mk.injEq] at ht
        rw [← ht.1] at hx
        cases hx
      · exact hh b t ht
  have hat : At { inArg := true } {} := ⟨rfl, rfl, .inl ⟨rfl, rfl⟩, (fun h => by cases h)⟩
  have hC := (always_root hs ho hb).trans (Q := fun d => items.ordinary o = true ∧
      d = nodeDoc aa (argsDoc o k aa l items (fmtItems o { inArg := true } true items) r) .nil)
    (fun d' hd' => by
      obtain ⟨hoy, cx, hcx, rfl, -⟩ := hd'
      have hoi : items.ordinary o = true := by
        simp only [Expr.ordinary, Bool.and_eq_true] at hoy
        exact hoy.2
      rw [fmt]
      refine always_wrap (Always.right ?_ _) hoy
      have htab : cx.table.getD (hasDirective o cx.dir a .table || inSetting o.table g) = false := by
        simp only [Expr.ordinary, Bool.and_eq_true] at hoy
        rw [hcx.1, Option.getD_none, ordinary_dir hoy.1.1.1 _ (.inr rfl), Bool.false_or]
        exact (listed_setting (by simpa using hoy.1.1.2)).2
      rw [htab, if_neg (by simp)]
      exact Always.self ⟨hoi, rfl⟩)
  obtain ⟨d', m', i, y, ⟨hoi, rfl⟩, hy, ⟨p, q, rfl⟩, hbare⟩ := hC.typesets (by
    rintro ex d ⟨-, h⟩
    cases h) h
  have hF := fmtItems_formeds o { inArg := true } true hat items hoi hhole
  have hS := fmtItems_shaped o { inArg := true } true hat items hoi hhole
  obtain ⟨hs', d0, ds, g1, g2, g3, g4, g5, g6, g7, g8⟩ :=
    split_holes hx _ hF (by rw [fmtItems_entries, hi])
  obtain ⟨e3, e4⟩ := seps_holes g8
  obtain ⟨y1, y2, rfl, hy1, y3, y4, rfl, hy3, hy4⟩ := hy
  have hclean : (∀ y, ((x, s) :: xs).getLast? = some (y, none) → y.endsClean = true) →
      ∀ e ∈ d0 :: ds, e.clean := by
    intro hl
    have hlast : ∀ y, ((d0 :: ds).map fun d => (d.arg, d.sep)).getLast? = some (y, none) →
        y.endsClean = true := by
      rw [List.map_cons, g3, g4, g5]
      exact hl
    exact formeds_clean _ g6 hlast
  have ht : isTestCall items = true → hs' = [] := by
    intro ht
    obtain ⟨u, v, _, _, _, _, _, _, _, _, hu, hv, -⟩ := isTestCall_titled ht
    have ha := congrArg (List.map Prod.fst) hi
    rw [entries_args, hu] at ha
    cases holes with
    | nil => cases hs' with
      | nil => rfl
      | cons _ _ => cases g8
    | cons t ts =>
      simp only [List.map_cons, List.cons_append, List.cons.injEq] at ha
      rw [ha.1] at hv
      cases hv
  have hnot : ¬(k = .call ∧ Titled items) ↔ ¬(k = .call ∧ isTestCall items = true) :=
    ⟨fun h h' => h ⟨h'.1, isTestCall_titled h'.2⟩, fun h h' => h ⟨h'.1, titled_isTestCall h'.2⟩⟩
  have hmay : ¬mayHug x xs → groupLast items = false ∧ hugging r (d0 :: ds) = false := by
    intro h
    constructor
    · rw [← Bool.not_eq_true]
      exact fun h' => h (groupLast_mayHug hi h')
    · rw [← Bool.not_eq_true]
      exact fun h' => h (hugging_mayHug g3 g5 h')
  obtain ⟨out, k1, k2⟩ := argsDoc_typesets g1 g2 g7 e4 g6
    (fun e he => hS e (List.dropWhile_sublist (p := ItemDoc.isHole) |>.subset (by rw [g2]; exact he)))
    (by rw [g3]; exact hx) ht
    (hc.symm.imp hclean (fun h => ⟨hnot.mp h.1, hmay h.2⟩))
    hy3
    (fun hm => by
      rcases hbare hm with h | h
      · cases h
      · exact (any_split (any_split h).2).1)
    (run {} (p ++ y1)).2
  rw [g3, g4, g5, e3] at k2
  obtain ⟨pre, post, e5⟩ := emit_part (q := y4 ++ q) (w := []) (by rw [k1, List.append_nil])
  exact ⟨pre, out, post, by rw [← e5]; simp, k2.imp (fun h => ⟨hnot.mpr h.1, h.2⟩)
    (fun h => ⟨h.1, fun n1 n2 => h.2 (hnot.mp n1) (hmay n2).1 (hmay n2).2⟩)⟩

/-- C61 for function definitions: the parameters are all on lines of their own, or everything from the
opening to the closing parenthesis is on one line. -/
theorem C61_parameters (o : Opts) (f : Root) (els : List El)
    (hs : rootSuppressed o f.es = false) (ho : f.es.ordinary o = true)
    (h : Typesets .expanded 0 (fmtRoot o f) els)
    (a : Ann) (kw : Token) (pa : Ann) (l r : Token) (items : Items) (e : Expr)
    (x : Arg) (s : Option Token) (xs : List (Arg × Option Token))
    (hb : Withins (.func a kw pa l items r e) f.es)
    (hi : items.entries = (x, s) :: xs) (hx : x.isHole = false) (hh : ∀ a s, (Arg.hole a, s) ∈ xs → a = {}) :
    ∃ pre out post, emit els = pre ++ out ++ post ∧
      (BrokenOut o l [] x s xs r out ∨ (Joined o l [] x s xs r out ∧ oneLine out)) := by
  have hhole : ∀ a s, (Arg.hole a, s) ∈ items.entries → a = {} := by
    intro b t ht
    rw [hi] at ht
    rcases List.mem_cons.mp ht with ht | ht
    · simp only [Prod.mk.injEq] at ht
      rw [← ht.1] at hx
      cases hx
    · exact hh b t ht
  have hC := (always_root hs ho hb).trans (Q := fun d => items.ordinary o = true ∧ ∃ cx,
      d = paramsDoc o pa l (fmtItems o (plainCx cx) false items) r)
    (fun d' hd' => by
      obtain ⟨hoy, cx, -, rfl, -⟩ := hd'
      have hoi : items.ordinary o = true := by
        simp only [Expr.ordinary, Bool.and_eq_true] at hoy
        exact hoy.1.2
      rw [fmt]
      refine always_wrap ?_ hoy
      have key : Always (fun d => items.ordinary o = true ∧ ∃ cx,
          d = paramsDoc o pa l (fmtItems o (plainCx cx) false items) r)
          (paramsDoc o pa l (fmtItems o (plainCx cx) false items) r) := Always.self ⟨hoi, cx, rfl⟩
      refine Always.group (Always.right (Always.left ?_ _) _) _
      split
      · exact key.noSoft
      · exact key)
  obtain ⟨d', m', i, y, ⟨hoi, cx, rfl⟩, hy, ⟨p, q, rfl⟩, hbare⟩ := hC.typesets (by
    rintro ex d ⟨-, _, h⟩
    unfold paramsDoc nodeDoc at h
    cases h) h
  have hF := fmtItems_formeds o (plainCx cx) false (At.plain cx) items hoi hhole
  have hS := fmtItems_shaped o (plainCx cx) false (At.plain cx) items hoi hhole
  have he := fmtItems_entries o (plainCx cx) false items
  rw [hi] at he
  generalize fmtItems o (plainCx cx) false items = D at hF hS he hy
  cases D with
  | nil => cases he
  | cons d0 ds =>
    simp only [List.map_cons, List.cons.injEq, Prod.mk.injEq] at he
    obtain ⟨⟨g3, g4⟩, g5⟩ := he
    obtain ⟨y1, y2, rfl, hy1, y3, y4, rfl, hy3, hy4⟩ := hy
    obtain ⟨m2, hm, hfl, u, v, rfl, (rfl : u = _), w, z, rfl, hw, (rfl : z = _)⟩ := hy3
    rw [paramsJoin_eq] at hw
    have hx0 : d0.arg.isHole = false := by rw [g3]; exact hx
    by_cases hex : m2 = .expanded
    · subst hex
      have hlay : Lays false .expanded i (brokenOut true l [] (d0 :: ds) r)
          ([.tok (outTok l)] ++ (w ++ [.tok (outTok r)])) :=
        ⟨.expanded, fun _ _ => rfl, _, _, rfl, rfl, [], _, rfl, rfl, [], _, rfl, rfl, w, _, rfl,
          typesets_lays hw, rfl⟩
      obtain ⟨out, k1, k2⟩ := broken_run (fun d hd => by cases hd) hF hx0 hlay (run {} (p ++ y1)).2
      rw [g3, g4, g5] at k2
      obtain ⟨pre, post, e5⟩ := emit_part (q := y4 ++ q) (w := []) (by rw [k1, List.append_nil])
      exact ⟨pre, out, post, by rw [← e5]; simp, .inl k2⟩
    · have hn : ([El.tok (outTok l)] ++ (w ++ [El.tok (outTok r)])).any El.isNl = false := by
        cases m2 with
        | expanded => exact absurd rfl hex
        | flat => exact hfl rfl
        | bare =>
          have hm' : m' = .bare := by
            cases m' with
            | bare => rfl
            | expanded => exact absurd rfl (hm.2.1 (by simp))
            | flat => exact absurd rfl (hm.2.1 (by simp))
          rcases hbare hm' with h | h
          · cases h
          · exact (any_split (any_split h).2).1
      have hw' := typesets_lays hw
      clear hw
      obtain ⟨u1, u2, rfl, ⟨w1, w2, rfl, (rfl : w1 = _), hw⟩, (rfl : u2 = _)⟩ := hw'
      have hl : ∀ j, layLine m2.isBare m2.mode j .soft = [] := by
        intro j
        cases m2 <;> first | rfl | exact absurd rfl hex
      rw [hl, hl] at hn ⊢
      obtain ⟨y, w, rfl, hy, hw⟩ := argsJoin_join (fun e he => (hS e he).1)
        (any_split (any_split (any_split (any_split hn).2).1).1).2 hw
      obtain ⟨out, k1, k2⟩ := joined_run (o := o) (l := l) (r := r) (hs := []) hF hx0 (g := []) (y := y) (z := w)
        rfl (by simp) hy hw (run {} (p ++ y1)).2
      rw [g3, g4, g5] at k2
      have e1 : [El.tok (outTok l)] ++ (([] ++ (y ++ w) ++ []) ++ [El.tok (outTok r)]) = [El.tok (outTok l)] ++
          (([] : List El) ++ ([] ++ (y ++ (w ++ [El.tok (outTok r)])))) := by
        simp
      rw [e1] at hn ⊢
      have hrun := run_oneLine _ (run {} (p ++ y1)).2 hn
      have k1' : (run (run {} (p ++ y1)).2 ([El.tok (outTok l)] ++
          (([] : List El) ++ ([] ++ (y ++ (w ++ [.tok (outTok r)])))))).1 =
          pendingEls (run {} (p ++ y1)).2 ++ out := k1
      obtain ⟨pre, post, e5⟩ := emit_part (q := y4 ++ q) (w := []) (by rw [k1', List.append_nil])
      refine ⟨pre, out, post, by rw [← e5]; simp, .inr ⟨k2, fun hr => hrun ?_⟩⟩
      rw [k1']
      exact List.mem_append_right _ hr

/-- C61 for chains of operators: each operator is followed by a line break, and its right operand is on lines
of its own; or the whole chain is on one line. -/
theorem C61_chain (o : Opts) (f : Root) (els : List El)
    (hs : rootSuppressed o f.es = false) (ho : f.es.ordinary o = true)
    (h : Typesets .expanded 0 (fmtRoot o f) els)
    (a : Ann) (x y : Expr) (op : Token) (hb : Withins (.binary a x op y) f.es) (hk : chains op.kind = true)
    (hmax : ∀ a' op' y', Withins (.binary a' (.binary a x op y) op' y') f.es → chains op'.kind = false) :
    ∃ pre head rest post, emit els = pre ++ head ++ rest ++ post ∧
      Statement o {} (Expr.binary a x op y).chainHead head ∧
      ((∃ i, Operands o i (Expr.binary a x op y).chainTail rest) ∨
       (Alongside o (Expr.binary a x op y).chainTail rest ∧ oneLine (head ++ rest))) := by
  have hC := (always_root hs ho hb).trans (Q := fun d => ∃ cx dg, d = nodeDoc a (.group
      (o.persistent && leadingNewline (firstRight x y).tokens) (chainDoc o cx x op y)) dg)
    (fun d' hd' => by
      obtain ⟨hoy, cx, -, rfl, hch⟩ := hd'
      rw [chainDoc_eq hk]
      have hc : cx.chain = false := by
        cases hc : cx.chain with
        | false => rfl
        | true =>
          obtain ⟨a', op', y', h1, h2⟩ := hch hc
          rw [chains_eq, hmax _ _ _ h2] at h1
          cases h1
      rw [hc, if_neg (by decide)]
      unfold wrapDoc
      rw [hc, Bool.false_and, if_neg (by decide), ordinary_suppressed hoy, if_neg (by decide)]
      exact Always.self ⟨cx, _, rfl⟩)
  obtain ⟨d', m', i, z, ⟨cx, dg, rfl⟩, hz, ⟨p, q, rfl⟩, hbare⟩ := hC.typesets (by
    rintro ex d ⟨_, _, h⟩
    cases h) h
  obtain ⟨y1, y2, rfl, hy1, y3, y4, rfl, hy3, hy4⟩ := hz
  obtain ⟨m2, hm, hfl, hy⟩ := hy3
  by_cases hex : m2 = .expanded
  · subst hex
    obtain ⟨k, out, w, e1, -, head, rest, rfl, e2, e3⟩ := chainGroup_run (b := a) hk
      (m := .expanded) ⟨.expanded, fun _ _ => rfl, typesets_lays hy⟩ (run {} (p ++ y1)).2
    obtain ⟨pre, post, e5⟩ := emit_part (q := y4 ++ q) e1
    exact ⟨pre, head, rest, post, by simpa using e5, e2, .inl ⟨k, e3⟩⟩
  · have hn : y3.any El.isNl = false := by
      cases m2 with
      | expanded => exact absurd rfl hex
      | flat => exact hfl rfl
      | bare =>
        have hm' : m' = .bare := by
          cases m' with
          | bare => rfl
          | expanded => exact absurd rfl (hm.2.1 (by simp))
          | flat => exact absurd rfl (hm.2.1 (by simp))
        rcases hbare hm' with h | h
        · cases h
        · exact (any_split (any_split h).2).1
    obtain ⟨head, rest, e1, e2, e3, -⟩ := chainDoc_flat (b := a) hk
      (flat_run o x _ rfl (at_opCx (cx := cx) hk _ _)) _ _ _ (run {} (p ++ y1)).2 _ (typesets_lays hy) hn
    obtain ⟨pre, post, e5⟩ := emit_part (q := y4 ++ q) (out := head ++ rest) (w := []) (by
      rw [e1]; simp)
    refine ⟨pre, head, rest, post, by simpa using e5, e2, .inr ⟨e3, fun hr => ?_⟩⟩
    refine run_oneLine _ (run {} (p ++ y1)).2 hn ?_
    rw [e1, List.append_assoc]
    exact List.mem_append_right _ hr

/-- C61 for assignments and formulas: unless a line break after the operator is kept (`C53_assignment`), the
right side starts on the line of the operator, after a space. This holds for every printer. -/
theorem C61_assignment (o : Opts) (f : Root) (m : Mode) (els : List El)
    (hs : rootSuppressed o f.es = false) (ho : f.es.ordinary o = true)
    (h : Lays false m 0 (fmtRoot o f) els)
    (a : Ann) (x y : Expr) (op : Token) (hb : Withins (.binary a x op y) f.es)
    (hk : assigns op.kind = true)
    (hbr : o.persistent = false ∨ keepsBreak op.kind = false ∨ onNewLine y.tokens = false) :
    ∃ pre p op' out post,
      emit els = pre ++ [.tok (outTok op'), .blank [32]] ++ out ++ post ∧
      Operator o p op op' ∧ Statement o (p.operand op.kind) y out := by
  have hC := (always_root hs ho hb).trans (Q := fun d => ∃ cx, d =
      .tok (assignTok o cx op) ⊹ (.space ⊹ fmt o { opCx cx op.kind with aligned := false } y))
    (fun d' hd' => by
      obtain ⟨hoy, cx, -, rfl, -⟩ := hd'
      have h1 : isSticky op.kind = false := by cases h : op.kind <;> simp_all [assigns, isSticky]
      have h2 : isAssignOp op.kind = true := by cases h : op.kind <;> simp_all [assigns, isAssignOp]
      have h3 : assignBreak o op.kind y = false := by
        unfold assignBreak
        rcases hbr with h | h | h
        · rw [h]; rfl
        · cases hk' : op.kind <;> simp_all [keepsBreak]
        · have : leadingNewline y.tokens = false := by
            cases hx : y.tokens with
            | nil => rfl
            | cons t ts => rw [hx] at h; exact h
          rw [this, Bool.and_false]
      have h4 : hasDirective o cx.dir a .table = false := by
        simp only [Expr.ordinary, Bool.and_eq_true] at hoy
        exact ordinary_dir hoy.1.1 _ (.inr rfl)
      rw [fmt]
      refine always_wrap ?_ hoy
      simp only [h1, h2, h3, h4]
      exact Always.group (Always.right (Always.right (Always.self ⟨cx, rfl⟩) _) _) _)
  obtain ⟨d', ns, m', i, z, ⟨cx, rfl⟩, ⟨u, v, rfl, (rfl : u = _), w, t, rfl, (rfl : w = _), ht⟩, p, q, rfl⟩ :=
    hC.lays h
  obtain ⟨last, k1, k2, k3, k4⟩ := fmt_run ht (printSpace { (run {} p).2 with
    started := true, space := false, ind := 0, emptyLine := false })
  rw [pending_space rfl rfl] at k1
  obtain ⟨out, w, e1, -, e2⟩ := k3.closes k2
  have hop : Operator o { assign := cx.eq } op (newOp o.style cx.eq op) := by
    unfold Operator newOp
    obtain ⟨k, lead, text, trail⟩ := op
    cases k <;> cases o.style <;> simp <;> cases cx.eq <;> simp
  obtain ⟨pre, post, e5⟩ := emit_part (p := p) (y := [.tok (assignTok o cx op)] ++ ([.space] ++ t)) (q := q)
    (out := [.tok (outTok (newOp o.style cx.eq op)), .blank [32]] ++ out) (w := w) (by
      rw [run_append, run_append, run_single, run_single]
      have : printEl (run {} p).2 (.tok (assignTok o cx op)) = printText (run {} p).2 (.tok (assignTok o cx op)) := rfl
      rw [this, printText_eq]
      dsimp only [printEl]
      rw [k1, e1, outTok_newOp]
      simp
      rfl)
  refine ⟨pre, { assign := cx.eq }, newOp o.style cx.eq op, out, post, by simpa using e5, hop, ?_⟩
  refine fmt_statement ?_ ht k4 e2
  refine ⟨rfl, ?_, .inl ⟨rfl, rfl⟩, (fun h => by cases h)⟩
  show ((match op.kind with | .assign | .equal | .wat => true | _ => false) && cx.eq) =
    (cx.eq && (op.kind == .equal || op.kind == .assign || op.kind == .wat))
  cases op.kind <;> cases cx.eq <;> rfl

/-! ## Examples -/

namespace Ex

/-- `{ x }` -/
def hugBlock : Expr := .braced {} (ts .lCurly "{") (list [id (ts .ident "x")]) (ts .rCurly "}")

/-- `function(x, y) { x }` -/
def hugFunc : Expr :=
  .func {} (ts .functionKw "function") {} (tk .lParen "(")
    (.cons (val (id (tk .ident "x"))) com (.last (val (id (ts .ident "y"))))) (tk .rParen ")") hugBlock

/-- `map(a, function(x, y) { x })` -/
def hugCall : Expr :=
  .call {} .call (id (tk .ident "map")) {} (tk .lParen "(")
    (.cons (val (id (tk .ident "a"))) com (.last (val hugFunc))) (tk .rParen ")")

/-- `f(a, b)` -/
def plainCall : Expr :=
  .call {} .call (id (tn .ident "f")) {} (tk .lParen "(")
    (.cons (val (id (tk .ident "a"))) com (.last (val (id (ts .ident "b"))))) (tk .rParen ")")

/-- `h <- x + y` -/
def sumAssign : Expr :=
  .binary {} (id (tn .ident "h")) (ts .assign "<-")
    (.binary {} (id (ts .ident "x")) (ts .plus "+") (id (ts .ident "y")))

/-- All of them. -/
def layoutProg : Root := file [hugCall, plainCall, sumAssign]

/-- What the printer prints. -/
def printed (o : Opts) (x : Root) (wide : Bool) (pick : Option Nat) : List Byte :=
  render (emit (typeset wide pick .expanded 0 (fmtRoot o x)))

end Ex

example : rootSuppressed (opts .arrow []) layoutProg.es = false := by decide
example : layoutProg.es.ordinary (opts .arrow []) = true := by decide
example : Typesets .expanded 0 (fmtRoot (opts .arrow []) layoutProg)
    (typeset true (some 0) .expanded 0 (fmtRoot (opts .arrow []) layoutProg)) :=
  typeset_typesets _ _ _ _ _ (by decide +kernel)
example : printed (opts .arrow []) layoutProg true (some 0) = tx (
    "map(a, function(x, y) {\n\tx\n})\n" ++ "f(a, b)\n" ++ "h <- x + y\n") := by decide +kernel
example : printed (opts .arrow []) layoutProg true (some 1) = tx (
    "map(a, function(x, y) {\n\tx\n})\n" ++ "f(a, b)\n" ++ "h <- x + y\n") := by decide +kernel
example : printed (opts .arrow []) layoutProg true none = tx (
    "map(\n\ta,\n\tfunction(x, y) {\n\t\tx\n\t}\n)\n" ++ "f(a, b)\n" ++ "h <- x + y\n") := by
  decide +kernel
example : printed (opts .arrow []) layoutProg false none = tx (
    "map(\n\ta,\n\tfunction(\n\t\tx,\n\t\ty\n\t) {\n\t\tx\n\t}\n)\n" ++ "f(\n\ta,\n\tb\n)\n" ++
    "h <- x +\n\ty\n") := by
  decide +kernel
example : Withins plainCall layoutProg.es := .inr (.inl (.inl rfl))
example : ¬mayHug (val (Ex.id (tk .ident "a"))) [(val (Ex.id (ts .ident "b")), none)] := by
  rintro (⟨y, e, h1, h2, h3, -⟩ | ⟨h, -⟩)
  · cases h1
    cases h2
    exact h3
  · cases h
example : mayHug (val (Ex.id (tk .ident "a"))) [(val hugFunc, none)] :=
  .inl ⟨_, _, rfl, rfl, (fun _ _ _ _ _ h => by cases h), by rintro (h | h) <;> simp_all [val, Arg.ann, Ann.all]⟩
example : Withins hugFunc layoutProg.es :=
  .inl (.inr (.inr (.inr (.inl rfl))))

/-- The braces of `{{ x }}` do not count. -/
example : ¬Huggable (.braced {} (ts .lCurly "{") (list [.braced {} (tk .lCurly "{")
    (list [Ex.id (ts .ident "x")]) (ts .rCurly "}")]) (tk .rCurly "}")) :=
  fun h => h _ _ _ _ _ rfl

end Verif.Format
