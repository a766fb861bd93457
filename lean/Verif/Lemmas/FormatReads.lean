import Verif.Lemmas.FormatSilent

/-!
# Every layout of a formatted expression reads as a permitted rewriting of it
-/

namespace Verif.Format
open Verif.Syntax

variable {st : Bool}

/-- The context without the fields that only influence the layout. -/
def Cx.core (cx : Cx) : Cx := { cx with aligned := false, flatParams := false }

/-- After text that may end with a line break (`b`) or not. -/
def Post (b : Bool) : RState → Prop := if b then Nc else In

theorem Post.nc {b : Bool} {s : RState} (h : Post b s) : Nc s := by
  cases b
  · exact In.nc h
  · exact h

theorem Post.of_in {b : Bool} {s : RState} (h : In s) : Post b s := by
  cases b
  · exact h
  · exact h.nc

theorem Post.mono {b c : Bool} (hbc : c = false → b = false) {s : RState} (h : Post b s) :
    Post c s := by
  cases c
  · rw [hbc rfl] at h; exact h
  · exact h.nc

theorem suppressed_core (o : Opts) (cx : Cx) (e : Expr) :
    suppressed o cx.core e = suppressed o cx e := by
  cases e <;> rfl

variable {o : Opts} {ns : Bool} {m : Mode} {i : Nat}

theorem lays_verbatim {a : Ann} {ts : List Token} {ps : List (Pos × Tok)} {Q : RState → Prop}
    (hr : Reads st Nc ps Q (rawEls ts))
    {x : List El} (h : Lays ns m i (verbatimDoc a ts) x) : Reads st Nc ps Q x := by
  obtain ⟨u, v, rfl, hu, w, z, rfl, hw, hz⟩ := h
  cases hw
  exact (lays_leading hu).1.pre (Reads.post hr (lays_trailing hz _))

/-- The wrapper around the fields of an expression. -/
theorem lays_wrap {cx : Cx} {g : Region} {e : Expr} {d : Doc} {R : Expr → Prop} {b : Bool}
    {x : List El} (hk : kept o cx.core e = true → RawOk st (shape g e) e.tokens)
    (hd : kept o cx.core e = false → ∀ y, Quiet st ns y → Lays ns m i d y →
      ∃ e', R e' ∧ Reads st Nc (shape g e') (Post b) y)
    (ht : tailNl e = false → b = false ∧ (e.isBraced = true ∨ e.ann.dangling.isEmpty = true))
    (hq : Quiet st ns x) (h : Lays ns m i (wrapDoc o cx e d) x) :
    ∃ e', Unless (kept o cx.core e) e e' (R e') ∧ Reads st Nc (shape g e') (Post (tailNl e)) x := by
  unfold wrapDoc at h
  by_cases hc : (cx.chain && e.isChain) = true
  · rw [if_pos hc] at h
    have hkf : kept o cx.core e = false := by
      unfold kept
      have : (cx.core.chain && e.isChain) = true := hc
      rw [this]; rfl
    obtain ⟨u, v, rfl, hu, hv⟩ := h
    obtain ⟨e', hR, hr⟩ := hd hkf u hq.left hu
    refine ⟨e', ?_, (hr.post (lays_trailing hv _)).imp (fun _ h => h)
      fun _ h => h.mono fun h => (ht h).1⟩
    unfold Unless
    rw [hkf]
    exact hR
  · rw [if_neg hc] at h
    have hc' : (cx.core.chain && e.isChain) = false := by
      have : ¬ (cx.core.chain && e.isChain) = true := hc
      simpa using this
    by_cases hs : suppressed o cx e = true
    · rw [if_pos hs] at h
      have hkt : kept o cx.core e = true := by
        unfold kept
        rw [hc', suppressed_core, hs]; rfl
      refine ⟨e, ?_, (lays_verbatim (hk hkt) h).imp (fun _ h => h) fun _ h => .of_in h⟩
      unfold Unless
      rw [hkt]
      rfl
    · rw [if_neg hs] at h
      have hkf : kept o cx.core e = false := by
        unfold kept
        rw [suppressed_core]
        simp [hs]
      obtain ⟨u, v, rfl, hu, w, z, rfl, hw, y, t, rfl, hy, htt⟩ := h
      obtain ⟨e', hR, hr⟩ := hd hkf w hq.right.left hw
      refine ⟨e', ?_, ?_⟩
      · unfold Unless
        rw [hkf]
        exact hR
      · refine (lays_leading hu).1.pre ?_
        have hyq : Quiet st ns y := hq.right.right.left
        cases hT : tailNl e with
        | true =>
          have hy' : Reads st Nc [] Nc y := by
            split at hy
            · cases hy; exact reads_nil _
            · exact (lays_danglingSoft' hyq hy).1
          exact (hr.imp (fun _ h => h) fun _ => Post.nc).post
            (Reads.post (P := Nc) (a := []) hy' (lays_trailing htt _))
        | false =>
          obtain ⟨rfl, hbr⟩ := ht hT
          have : y = [] := by
            split at hy
            · cases hy; rfl
            · rename_i hnb
              exact (lays_danglingSoft' hyq hy).2 (hbr.resolve_left hnb)
          subst this
          exact hr.post (lays_trailing htt _)

/-- Around an argument or parameter. -/
theorem lays_argDoc {vcx : Cx} {dir : Bool} {x : Arg} {d : Doc}
    (hk : hasDirective o dir x.ann .skip = true →
      Reads st Nc (shapeArg x) Nc (rawEls x.tokens) ∧ RewArg o vcx dir x x)
    (hd : DocOk st o vcx dir x d) : DocOk st o vcx dir x (argDoc o dir x d) := by
  intro ns m i els hq h
  unfold argDoc at h
  split at h
  · rename_i hs
    exact ⟨x, (hk hs).2, lays_verbatim (hk hs).1 h⟩
  · obtain ⟨u, v, rfl, hu, w, z, rfl, hw, y, t, rfl, hy, ht⟩ := h
    obtain ⟨x', hR, hr⟩ := hd ns m i w hq.right.left hw
    exact ⟨x', hR, (lays_leading hu).1.pre (hr.post (Reads.post (P := Nc) (a := [])
      (lays_danglingSoft' hq.right.right.left hy).1 (lays_trailing ht _)))⟩

/-- Around a node whose fields are inside parentheses. -/
theorem lays_node {a : Ann} {d : Doc} {b : List Comment} {x : List El} {p : List (Pos × Tok) → Prop}
    (hq : Quiet st ns x) (h : Lays ns m i (nodeDoc a d (danglingSoft b)) x)
    (hd : ∀ y, Quiet st ns y → Lays ns m i d y → ∃ ps, p ps ∧ Reads st Nc ps Nc y) :
    ∃ ps, p ps ∧ Reads st Nc ps Nc x := by
  obtain ⟨u, v, rfl, hu, w, z, rfl, hw, y, t, rfl, hy, ht⟩ := h
  obtain ⟨ps, hp, hr⟩ := hd w hq.right.left hw
  exact ⟨ps, hp, (lays_leading hu).1.pre (hr.post (Reads.post (P := Nc) (a := [])
    (lays_danglingSoft' hq.right.right.left hy).1 (lays_trailing ht _)))⟩

/-! ## Bodies -/

/-- A body is written as it is, in braces, or in braces if the enclosing group breaks (`m`). -/
theorem lays_body {cx : Cx} {g : Region} {as force : Bool} {e : Expr} {d : Doc} {x : List El}
    {b : Bool} (hq : Quiet st ns x) (h : Lays ns m i (bodyDoc as force d) x)
    (hd : force = false ∨ as = true → ∀ i y, Quiet st ns y → Lays ns m i d y →
      ∃ e', Rew o cx e e' ∧ Reads st Nc (shape g e') (Post b) y)
    (hb : as = false → ∀ i y, Quiet st ns y → Lays ns m i d y →
      ∃ e', Rew o cx e e' ∧ Reads st Nc (shape .brace e') (Post b) y) :
    ∃ e', Rew o cx e e' ∧
      Reads st Nc (shape g (newBody as force (m == .expanded) e'))
        (Post (b && (!force || as))) x := by
  have braces : ∀ (x y z : List El) (e' : Expr), Reads st In [] Nc x → Reads st Nc [] Nc z →
      Reads st Nc (shape .brace e') (Post b) y →
      Reads st Nc (shape g (wrapE e')) In ([.tok lBrace] ++ (x ++ y ++ z) ++ [.tok rBrace]) := by
    intro x y z e' hx hz hy
    have : shape g (wrapE e') =
        [(Pos.free, lBrace)] ++ shape .brace e' ++ [(Pos.free, rBrace)] := by
      show (Pos.free, lBrace) :: ((setHead .free (shape .brace e') ++ []) ++ [(.free, rBrace)]) = _
      rw [setHead_free (shape_head_free _ _)]
      simp
    rw [this]
    exact ((reads_tok _).append ((hx.pre (hy.imp (fun _ h => h) fun _ => Post.nc)).post hz)).append
      (reads_tok _)
  unfold bodyDoc at h
  cases as with
  | true =>
    obtain ⟨e', hR, hr⟩ := hd (.inr rfl) i x hq h
    refine ⟨e', hR, ?_⟩
    simp only [newBody, if_true]
    exact hr.imp (fun _ h => h) fun _ h => h.mono (by simp)
  | false =>
    rw [if_neg (by decide)] at h
    unfold braceDoc at h
    cases force with
    | true =>
      rw [if_pos rfl] at h
      obtain ⟨u, v, rfl, hu, w, z, rfl, hw, hz⟩ := h
      cases hu
      cases hz
      obtain ⟨p, y, q, rfl, hy, hp, hqq⟩ := lays_hardBlock hw
      obtain ⟨e', hR, hr⟩ := hb rfl _ y hq.right.left.left.right hy
      refine ⟨e', hR, ?_⟩
      have := braces p y q e' (hp.imp any_an fun _ => Fr.nc) (hqq.imp any_an fun _ => Fr.nc) hr
      simp only [List.append_assoc] at this ⊢
      exact this.imp (fun _ h => h) fun _ h => .of_in h
    | false =>
      rw [if_neg (by decide)] at h
      obtain ⟨u, v, rfl, hu, w, z, rfl, hw, hz⟩ := h
      obtain ⟨p, y, q, rfl, hy, hp, hqq, hflat⟩ := lays_softBlock (st := st) hw
      rcases hu with ⟨hm, hu⟩ | ⟨hm, rfl⟩
      · subst hm
        rcases hz with ⟨-, hz⟩ | ⟨hm, -⟩
        · cases hu
          cases hz
          obtain ⟨e', hR, hr⟩ := hb rfl _ y hq.right.left.left.right hy
          refine ⟨e', hR, ?_⟩
          have := braces p y q e' (hp.ofNc fun _ => In.nc) hqq hr
          simp only [List.append_assoc] at this ⊢
          exact this.imp (fun _ h => h) fun _ h => .of_in h
        · cases hm
      · subst hm
        rcases hz with ⟨hm, -⟩ | ⟨-, rfl⟩
        · cases hm
        · obtain ⟨rfl, rfl⟩ := hflat rfl
          obtain ⟨e', hR, hr⟩ := hd (.inl rfl) _ y hq.right.left.left.right hy
          refine ⟨e', hR, ?_⟩
          simp only [List.nil_append, List.append_nil]
          exact hr.imp (fun _ h => h) fun _ h => h.mono (by simp)

/-! ## From lists of documents back to lists of arguments -/

theorem rewList_items {vcx wcx : Cx} {dir : Bool} (items : Items) {ys : List Arg}
    (h : RewList o wcx dir (fmtItems o vcx dir items) ys) :
    ∃ items', RewItems o wcx dir items items' ∧
      shapeItems items' = lshape (fmtItems o vcx dir items) ys := by
  have key : ∀ n (items : Items), sizeOf items ≤ n → ∀ ys,
      RewList o wcx dir (fmtItems o vcx dir items) ys →
      ∃ items', RewItems o wcx dir items items' ∧
        shapeItems items' = lshape (fmtItems o vcx dir items) ys := by
    intro n
    induction n with
    | zero => intro items hn; cases items <;> simp at hn
    | succ n ih =>
      intro items hn ys h
      cases items with
      | nil =>
        cases ys with
        | nil => exact ⟨.nil, by rw [RewItems], rfl⟩
        | cons _ _ => cases h
      | last x =>
        match ys, h with
        | [y], h =>
          refine ⟨.last y, by rw [RewItems]; exact ⟨y, h.1, rfl⟩, ?_⟩
          simp [fmtItems, lshape, shapeItems, sepShape]
        | [], h => cases h
        | _ :: _ :: _, h => cases h.2
      | cons x s xs =>
        match ys, h with
        | [], h => cases h
        | y :: ys, h =>
          obtain ⟨xs', h1, h2⟩ := ih xs (by simp at hn; omega) ys h.2
          refine ⟨.cons y s xs', by rw [RewItems]; exact ⟨y, xs', h.1, h1, rfl⟩, ?_⟩
          simp [fmtItems, lshape, shapeItems, sepShape, h2]
  exact key _ items (Nat.le_refl _) ys h

theorem between_reads {vcx wcx : Cx} {dir : Bool} {items : Items} {l r : Token} {x : List El}
    (h : Between st o wcx dir l (fmtItems o vcx dir items) r x) {g : Region} {P : RState → Prop}
    (hp : ∀ s, P s → Nc s) (hi : st = true → g.op = .forbid → ∀ s, P s → In s) :
    ∃ items', RewItems o wcx dir items items' ∧
      Reads st P ((g.op, outTok l) :: (shapeItems items' ++ [(.free, outTok r)])) In x := by
  obtain ⟨y, rfl, ys, hys, hy⟩ := h
  obtain ⟨items', h1, h2⟩ := rewList_items items hys
  refine ⟨items', h1, ?_⟩
  rw [h2]
  exact Reads.append (a := [(g.op, outTok l)]) (x := [.tok (outTok l)])
    (reads_tok_op g _ hp hi)
    ((hy.ofNc fun _ => In.nc).append (reads_tok _))

theorem between_reads_free {vcx wcx : Cx} {dir : Bool} {items : Items} {l r : Token} {x : List El}
    (h : Between st o wcx dir l (fmtItems o vcx dir items) r x) :
    ∃ items', RewItems o wcx dir items items' ∧
      Reads st Nc ((.free, outTok l) :: (shapeItems items' ++ [(.free, outTok r)])) In x :=
  between_reads (g := .paren) h (fun _ h => h) fun _ h => by cases h

theorem lays_params {wcx : Cx} {pa : Ann} {l r : Token} {ds : List ItemDoc} {x : List El}
    (hd : ∀ d ∈ ds, ItemOk st o wcx false d) (hq : Quiet st ns x)
    (h : Lays ns m i (paramsDoc o pa l ds r) x) :
    ∃ u v w, x = u ++ (v ++ w) ∧ Reads st Nc [] Nc u ∧ (∀ P, Reads st P [] P w) ∧
      Between st o wcx false l ds r v := by
  obtain ⟨u, v, rfl, hu, w, z, rfl, hw, y, t, rfl, hy, ht⟩ := h
  cases hy
  refine ⟨u, w, t, rfl, (lays_leading hu).1, fun P => lays_trailing ht P, ?_⟩
  have hq := hq.right.left
  cases ds with
  | nil =>
    obtain ⟨a, b, rfl, ha, c, e, rfl, hc, he⟩ := hw
    cases ha
    cases he
    exact ⟨c, by simp, [], trivial, (lays_danglingSoft' hq.right.left hc).1⟩
  | cons d ds =>
    obtain ⟨m', -, a, b, rfl, ha, c, e, rfl, hc, he⟩ := hw
    cases ha
    cases he
    obtain ⟨p, y, q, rfl, hy, hp, hqq, -⟩ := lays_softBlock hc
    exact ⟨p ++ y ++ q, by simp, ((lays_paramsJoin hd hq.right.left.left.right hy).pre hp).post hqq⟩

theorem cellsQuiet_items {vcx : Cx} {dir : Bool} (items : Items) (h : cellsQuiet items) :
    ∀ d ∈ (fmtItems o vcx dir items).takeWhile (fun x => !x.arg.isNamed),
      d.arg.isNumeric = true ∨ d.fields.Silent := by
  have key : ∀ n (items : Items), sizeOf items ≤ n → cellsQuiet items →
      ∀ d ∈ (fmtItems o vcx dir items).takeWhile (fun x => !x.arg.isNamed),
        d.arg.isNumeric = true ∨ d.fields.Silent := by
    intro n
    induction n with
    | zero => intro items hn; cases items <;> simp at hn
    | succ n ih =>
      intro items hn h d hd
      cases items with
      | nil => cases hd
      | last x =>
        simp only [fmtItems, List.takeWhile_cons, List.takeWhile_nil] at hd
        split at hd
        · rename_i hnm
          simp only [List.mem_singleton] at hd
          subst hd
          rcases h with h | h | h
          · rw [h] at hnm; cases hnm
          · exact .inl h
          · exact .inr (fmtArg_silent o vcx h)
        · cases hd
      | cons x s xs =>
        simp only [fmtItems, List.takeWhile_cons] at hd
        split at hd
        · rename_i hnm
          rcases h with h | ⟨h, h'⟩
          · rw [h] at hnm; cases hnm
          · rcases List.mem_cons.1 hd with rfl | hd
            · exact h.imp id (fmtArg_silent o vcx)
            · exact ih xs (by simp at hn; omega) h' d hd
        · cases hd
  exact key _ items (Nat.le_refl _) h

/-- The arguments of a call. -/
theorem lays_callArgs' {vcx : Cx} {k : CallKind} {aa : Ann} {l r : Token} {items : Items}
    {table : Bool} {x : List El}
    (hd : ∀ d ∈ fmtItems o vcx true items, ItemOk st o vcx.core true d)
    (htab : (k == .call && table) = true → (st = true → cellsQuiet items) ∧
      RawOk st ((.free, outTok l) :: (shapeItems items ++ [(.free, outTok r)]))
        (l :: (items.tokens ++ [r])))
    (hq : Quiet st ns x)
    (h : Lays ns m i (nodeDoc aa
      (if k = .call ∧ table = true then tableDoc o aa l items (fmtItems o vcx true items) r
       else argsDoc o k aa l items (fmtItems o vcx true items) r) .nil) x)
    {g : Region} {b : Bool} (ha : g.op = .forbid → b = false ∧ aa.leading = []) :
    ∃ items', (RewItems o vcx.core true items items' ∨
        (k == .call && table) = true ∧ items' = items) ∧
      Reads st (Post b) ((g.op, outTok l) :: (shapeItems items' ++ [(.free, outTok r)])) In x := by
  obtain ⟨u, v, rfl, hu, w, z, rfl, hw, y, t, rfl, hy, ht⟩ := h
  cases hy
  have hlead := lays_leading (st := st) hu
  have hfree : g.op ≠ .forbid → (b || g.op != .forbid) = true := by
    intro hg
    simp [hg]
  -- after the leading comments
  have hP : Reads st (Post b) [] (Post (b || g.op != .forbid)) u := by
    by_cases hg : g.op = .forbid
    · obtain ⟨rfl, hl⟩ := ha hg
      rw [hlead.2 hl, hg]
      exact reads_nil _
    · rw [hfree hg]
      exact hlead.1.ofNc fun _ => Post.nc
  have hp : ∀ s, Post (b || g.op != .forbid) s → Nc s := fun _ => Post.nc
  have hi : g.op = .forbid → ∀ s, Post (b || g.op != .forbid) s → In s := by
    intro hg s hs
    rw [(ha hg).1, hg] at hs
    exact hs
  have key : ∃ items', (RewItems o vcx.core true items items' ∨
        (k == .call && table) = true ∧ items' = items) ∧
      Reads st (Post (b || g.op != .forbid))
        ((g.op, outTok l) :: (shapeItems items' ++ [(.free, outTok r)])) In w := by
    split at hw
    · rename_i hkt
      have hkt' : (k == .call && table) = true := by simp [hkt.1, hkt.2]
      obtain ⟨hc, hraw⟩ := htab hkt'
      rcases lays_tableDoc hd (fun h => cellsQuiet_items items (hc h)) hq.right.left hw with h | h
      · obtain ⟨items', h1, h2⟩ := between_reads h hp fun _ => hi
        exact ⟨items', .inl h1, h2⟩
      · refine ⟨items, .inr ⟨hkt', rfl⟩, ?_⟩
        obtain ⟨p, q, rfl, hp', y, z', rfl, hy, hz⟩ := h
        cases hy
        have hhead : ∃ rest, rawEls (l :: (items.tokens ++ [r])) = .tok (outTok l) :: rest := by
          cases items.tokens with
          | nil => exact ⟨_, rfl⟩
          | cons _ _ => exact ⟨_, rfl⟩
        obtain ⟨rest, hrest⟩ := hhead
        unfold RawOk at hraw
        rw [hrest] at hraw ⊢
        have h1 := hraw.op_head (g := g) (P := Post (b || g.op != .forbid)) hp fun _ => hi
        refine Reads.pre (Q := Post (b || g.op != .forbid)) ?_ (h1.post (lays_trailing hz _))
        have hlead' := lays_leading (st := st) hp'
        by_cases hg : g.op = .forbid
        · obtain ⟨rfl, hl⟩ := ha hg
          rw [hlead'.2 (by rw [hl]; rfl), hg]
          exact reads_nil _
        · rw [hfree hg]
          exact hlead'.1
    · obtain ⟨items', h1, h2⟩ := between_reads (lays_argsDoc hd hq.right.left hw) hp fun _ => hi
      exact ⟨items', .inl h1, h2⟩
  obtain ⟨items', h1, h2⟩ := key
  exact ⟨items', h1, hP.pre (h2.post (lays_trailing ht _))⟩

theorem lays_callArgs {vcx : Cx} {k : CallKind} {aa : Ann} {l r : Token} {items : Items}
    {table : Bool} {x : List El}
    (hd : ∀ d ∈ fmtItems o vcx true items, ItemOk st o vcx.core true d)
    (htab : (k == .call && table) = true → (st = true → cellsQuiet items) ∧
      RawOk st ((.free, outTok l) :: (shapeItems items ++ [(.free, outTok r)]))
        (l :: (items.tokens ++ [r])))
    (hq : Quiet st ns x)
    (h : Lays ns m i (nodeDoc aa
      (if k = .call ∧ table = true then tableDoc o aa l items (fmtItems o vcx true items) r
       else argsDoc o k aa l items (fmtItems o vcx true items) r) .nil) x)
    {g : Region} {b : Bool} (ha : st = true → g.op = .forbid → b = false ∧ aa.leading = []) :
    ∃ items', (RewItems o vcx.core true items items' ∨
        (k == .call && table) = true ∧ items' = items) ∧
      Reads st (Post b) ((g.op, outTok l) :: (shapeItems items' ++ [(.free, outTok r)])) In x := by
  cases st with
  | true => exact lays_callArgs' hd htab hq h (ha rfl)
  | false =>
    obtain ⟨items', h1, h2⟩ := lays_callArgs' hd htab hq h (g := .paren) (b := b)
      (fun h => by cases h)
    exact ⟨items', h1, ⟨(fun h => by cases h), h2.2⟩⟩

/-- The operator after formatting. -/
theorem outTok_newOp (o : Opts) (cx : Cx) (op : Token) :
    assignTok o cx op = outTok (newOp o.style cx.core.eq op) := by
  have h : cx.core.eq = cx.eq := rfl
  rw [h]
  unfold assignTok newOp
  cases op.kind <;> cases o.style <;> (try rfl)
  cases cx.eq <;> rfl

theorem newOp_eq {style : Settings.AssignmentStyle} {eq : Bool} {op : Token}
    (h : isAssignOp op.kind = false) : newOp style eq op = op := by
  unfold newOp
  revert h
  cases op.kind <;> cases style <;> intro h <;> first | rfl | cases h

theorem sticky_not {k : Kind} (h : isSticky k = true) : isAssignOp k = false ∧ isChainOp k = false := by
  revert h
  cases k <;> simp [isSticky, isAssignOp, isChainOp]

theorem assign_not {k : Kind} (h : isAssignOp k = true) : isChainOp k = false := by
  revert h
  cases k <;> simp [isAssignOp, isChainOp]

end Verif.Format
