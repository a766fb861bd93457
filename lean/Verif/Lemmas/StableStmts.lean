import Verif.Lemmas.StableMain

/-!
# Calls, functions and statements in a formatted text
-/

namespace Verif.Format
open Verif.Syntax

variable {o : Opts}

section
variable {cx : Cx} {m : PMode} {i : Nat} {x : List El} {s s' : W} {ts ts' : List Token}

/-! ## Calls -/

theorem core_call {a aa : Ann} {k : CallKind} {f : Expr} {l r : Token} {items : Items}
    (hper : o.persistent = true) (hcf : CoreE o f) (hci : ∀ p ∈ items.entries, CoreA o p.1) :
    CoreE o (.call a k f aa l items r) := by
  intro cx m i x s ts s' ts' hs ht hb hp h
  have ha := hs.1
  subst ha
  have haa := hs.2.1
  subst haa
  have hfmt : ∀ f l items r, (Expr.call {} k f {} l items r).Simple o → Same (fmt o cx (.call {} k f {} l items r))
      (fmt o (plainCx cx) f ⊹ nodeDoc {} (argsDoc o k {} l items (fmtItems o { inArg := true } true items) r) .nil) := by
    intro f l items r hs
    rw [fmt]
    have h1 := simple_inTable hs
    simp only [ht, h1, hasDirective, Option.getD_none, List.any_nil, Bool.and_false, Bool.or_false,
      Bool.false_eq_true, and_false, if_false]
    exact same_wrap hs cx
  obtain ⟨x1, x2, s1, ts1, rfl, h1, h2⟩ := (h.same (hfmt f l items r hs)).cat
  obtain ⟨-, -, hl, hsf, hpl, hsi, hpr⟩ := id hs
  obtain ⟨rfl, f', hE, hp2⟩ := hcf.use hsf rfl (by simp [plainCx]) hp h1
  obtain ⟨rfl, l', items', r', hA⟩ := args_step hper hci hsi ⟨rfl, rfl, rfl, rfl⟩ hpr hp2 (h2.same same_node)
  have hp3 := hp2
  rw [hA.toks] at hp3
  have hs' : (Expr.call {} k f' {} l' items' r').Simple o :=
    ⟨rfl, rfl, by rw [listed_head hE.head]; exact hl, hE.simple, hp3.cons.1, hA.simple,
      hp3.cons.2.append.2.cons.1⟩
  refine ⟨rfl, .call {} k f' {} l' items' r', mkRe (by intros; simp) (by intros; simp) (fun _ => rfl) ?_ ?_ hs' ?_ ?_ ?_⟩
  · rw [hE.toks, hA.toks]; simp [Expr.tokens]
  · have := hE.lines
    rw [← this]
    obtain ⟨t, us, hh⟩ := List.exists_cons_of_ne_nil (tokens_ne_nil f')
    simp [Expr.tokens, hh, linesBefore]
  · rfl
  · obtain ⟨f'', h5, h6⟩ := hE.rew
    obtain ⟨items'', h7, h8⟩ := hA.rew
    refine ⟨.call {} k f'' {} l items'' r, ?_, ?_⟩
    · rw [Rew]
      exact unless_simple hs ⟨f'', items'', h5, .inl h7, rfl⟩
    · simp only [Expr.bare, bare_eq hA.lout, bare_eq hA.rout, h6, h8]
  · exact (hE.again.cat (hA.again.same same_node same_node)).same (hfmt f l items r hs) (hfmt f' l' items' r' hs')

/-! ## Conditions and bodies -/

theorem cond_step {pcx : Cx} {c : Expr} (hc : CoreE o c) (hs : c.Simple o) (ht : pcx.table = none)
    (hb : pcx.braces = none) (hp : AllPlain ts)
    (h : Step m i (.group false (softBlock (fmt o pcx c))) x s ts s' ts') :
    ∃ c', ts = c'.tokens ++ ts' ∧ c'.Simple o ∧ (∃ c'', Rew o pcx.core c c'' ∧ c''.bare = c'.bare) ∧
      AllPlain ts' ∧ AgainIn m i (.group false (softBlock (fmt o pcx c))) (.group false (softBlock (fmt o pcx c'))) x := by
  obtain ⟨m', hm, hmb, h0⟩ := h.group
  obtain ⟨x5, x6, s3, ts3, rfl, h5, h6⟩ := h0.cat
  obtain ⟨x7, x8, s4, ts4, rfl, h7, h8⟩ := h5.indent.cat
  obtain ⟨hs7, rfl, -⟩ := h7.line
  obtain ⟨hs6, rfl, -⟩ := h6.line
  obtain ⟨rfl, c', hE, hp2⟩ := hc.use hs ht (by rw [hb]; simp) hp h8
  refine ⟨c', hE.toks, hE.simple, hE.rew, hp2, ?_⟩
  refine Again.within ?_ rfl
  exact (((Again.refl h7).cat hE.again).indent.cat (.refl h6)).group hm (fun _ => rfl) (fun h => h)

theorem ReB.plain {bcx : Cx} {as force : Bool} {b b' : Expr} (h : ReB o bcx as force m i b x ts ts' b')
    (hp : AllPlain ts) : AllPlain ts' := by
  rw [h.toks] at hp
  exact hp.append.2

/-- The body that is read has braces. -/
theorem ReB.braced {bcx : Cx} {force : Bool} {b b' : Expr} (h : ReB o bcx b.isBraced force m i b x ts ts' b')
    (hn : (b.isBraced || force || decide (m = .expanded)) = true) : b'.isBraced = true := by
  cases hb : b.isBraced with
  | true => rw [(head_eq (h.head (.inl hb))).1]; exact hb
  | false =>
    rw [hb] at hn
    simp only [Bool.false_or, Bool.or_eq_true, decide_eq_true_eq] at hn
    exact (h.wrapped hb hn).1

theorem ReB.lead {bcx : Cx} {as force : Bool} {b b' : Expr} (h : ReB o bcx as force m i b x ts ts' b') :
    leadingNewline b'.tokens = false := by
  rw [leading_lines (Expr.Simple.ok b' h.simple).2.2.1, h.lines]
  rfl

/-- The document of the body that is read. -/
theorem ReB.doc {bcx : Cx} {force force' : Bool} {b b' : Expr} (h : ReB o bcx b.isBraced force m i b x ts ts' b')
    (hf : (b.isBraced || force || decide (m = .expanded)) = false → force' = false) :
    AgainIn m i (bodyDoc b.isBraced force (fmt o bcx b)) (bodyDoc b'.isBraced force' (fmt o bcx b')) x := by
  have h1 := h.again
  cases hn : (b.isBraced || force || decide (m = .expanded)) with
  | true =>
    rw [hn] at h1
    rw [h.braced hn]
    exact h1
  | false =>
    rw [hn] at h1
    rw [hf hn]
    simp only [Bool.or_eq_false_iff, decide_eq_false_iff_not] at hn
    rw [(head_eq (h.head (.inr ⟨hn.1.2, hn.2⟩))).1]
    rw [hn.1.1] at h1 ⊢
    exact h1

/-! ## Loops -/

theorem newBody_loop {as multi : Bool} {b : Expr} : newBody as true multi b = newBody as true false b := by
  simp [newBody]

theorem core_repeat {a : Ann} {kw : Token} {b : Expr} (hcb : CoreE o b) : CoreE o (.repeat_ a kw b) := by
  intro cx m i x s ts s' ts' hs ht hb hp h
  have ha := hs.1
  subst ha
  have hfmt : ∀ kw b, (Expr.repeat_ {} kw b).Simple o → Same (fmt o cx (.repeat_ {} kw b))
      (.group false (tokDoc kw ⊹ .space ⊹ bodyDoc b.isBraced true (fmt o (bodyCx cx) b))) := by
    intro kw b hs
    rw [fmt]
    exact same_wrap hs cx
  obtain ⟨m', hm, hmb, h0⟩ := (h.same (hfmt kw b hs)).group
  obtain ⟨x1, x2, s1, ts1, rfl, h1, h2⟩ := h0.cat
  obtain ⟨x3, x4, s2, ts2, rfl, h3, h4⟩ := h2.cat
  obtain ⟨kw', rfl, hko, hkl, rfl, hA⟩ := h1.tokDoc
  obtain ⟨rfl, rfl, rfl⟩ := h3.space
  obtain ⟨rfl, b', hB⟩ := body_step hcb hs.2.2 rfl rfl (by simp [bodyCx]) (fun h => ⟨h, rfl⟩) hp.cons.2 h4
  have hs' : (Expr.repeat_ {} kw' b').Simple o := ⟨rfl, hp.cons.1, hB.simple⟩
  refine ⟨rfl, .repeat_ {} kw' b', mkRe (by intros; simp) (by intros; simp) (fun _ => rfl) ?_ ?_ hs' ?_ ?_ ?_⟩
  · rw [hB.toks]; simp [Expr.tokens]
  · simpa [Expr.tokens, linesBefore] using hkl
  · rfl
  · obtain ⟨b'', h5, h6⟩ := hB.rew
    rw [newBody_loop] at h6
    refine ⟨.repeat_ {} kw (newBody b.isBraced true false b''), ?_, ?_⟩
    · rw [Rew]; exact unless_simple hs ⟨b'', h5, rfl⟩
    · simp only [Expr.bare, bare_eq hko, h6]
  · refine Again.same ?_ (hfmt kw b hs) (hfmt kw' b' hs')
    exact ((hA.within rfl).cat (((Again.refl h3).within rfl).cat (hB.doc (by simp)))).group hm

theorem core_while {a : Ann} {kw l r : Token} {c b : Expr} (hcc : CoreE o c) (hcb : CoreE o b) :
    CoreE o (.while_ a kw l c r b) := by
  intro cx m i x s ts s' ts' hs ht hb hp h
  have ha := hs.1
  subst ha
  have hfmt : ∀ kw l c r b, (Expr.while_ {} kw l c r b).Simple o → Same (fmt o cx (.while_ {} kw l c r b))
      (.group false (tokDoc kw ⊹ .space ⊹ tokDoc l ⊹ .group false (softBlock (fmt o (plainCx cx) c)) ⊹
          tokDoc r ⊹ .space ⊹ bodyDoc b.isBraced true (fmt o (bodyCx cx) b))) := by
    intro kw l c r b hs
    rw [fmt]
    exact same_wrap hs cx
  obtain ⟨-, -, -, hsc, -, hsb⟩ := id hs
  obtain ⟨m', hm, hmb, h0⟩ := (h.same (hfmt kw l c r b hs)).group
  obtain ⟨x1, _, s1, ts1, rfl, h1, h0⟩ := h0.cat
  obtain ⟨x2, _, s2, ts2, rfl, h2, h0⟩ := h0.cat
  obtain ⟨x3, _, s3, ts3, rfl, h3, h0⟩ := h0.cat
  obtain ⟨x4, _, s4, ts4, rfl, h4, h0⟩ := h0.cat
  obtain ⟨x5, _, s5, ts5, rfl, h5, h0⟩ := h0.cat
  obtain ⟨x6, x7, s6, ts6, rfl, h6, h7⟩ := h0.cat
  obtain ⟨kw', rfl, hko, hkl, rfl, hA1⟩ := h1.tokDoc
  obtain ⟨rfl, rfl, rfl⟩ := h2.space
  obtain ⟨l', rfl, hlo, hll, rfl, hA3⟩ := h3.tokDoc
  obtain ⟨c', rfl, hc', hcr, hp4, hA4⟩ := cond_step hcc hsc rfl rfl hp.cons.2.cons.2 h4
  obtain ⟨r', rfl, hro, hrl, rfl, hA5⟩ := h5.tokDoc
  obtain ⟨rfl, rfl, rfl⟩ := h6.space
  obtain ⟨rfl, b', hB⟩ := body_step hcb hsb rfl rfl (by simp [bodyCx]) (fun h => ⟨h, rfl⟩) hp4.cons.2 h7
  have hs' : (Expr.while_ {} kw' l' c' r' b').Simple o :=
    ⟨rfl, hp.cons.1, hp.cons.2.cons.1, hc', hp4.cons.1, hB.simple⟩
  refine ⟨rfl, .while_ {} kw' l' c' r' b', mkRe (by intros; simp) (by intros; simp) (fun _ => rfl) ?_ ?_ hs' ?_ ?_ ?_⟩
  · rw [hB.toks]; simp [Expr.tokens]
  · simpa [Expr.tokens, linesBefore] using hkl
  · rfl
  · obtain ⟨b'', h8, h9⟩ := hB.rew
    rw [newBody_loop] at h9
    obtain ⟨c'', h10, h11⟩ := hcr
    refine ⟨.while_ {} kw l c'' r (newBody b.isBraced true false b''), ?_, ?_⟩
    · rw [Rew]; exact unless_simple hs ⟨c'', b'', h10, h8, rfl⟩
    · simp only [Expr.bare, bare_eq hko, bare_eq hlo, bare_eq hro, h9, h11]
  · refine Again.same ?_ (hfmt kw l c r b hs) (hfmt kw' l' c' r' b' hs')
    exact ((hA1.within rfl).cat (((Again.refl h2).within rfl).cat ((hA3.within rfl).cat (hA4.cat
      ((hA5.within rfl).cat (((Again.refl h6).within rfl).cat (hB.doc (by simp)))))))).group hm

theorem core_for {a : Ann} {kw l inn r : Token} {v sq b : Expr} (hcv : CoreE o v) (hcs : CoreE o sq)
    (hcb : CoreE o b) : CoreE o (.for_ a kw l v inn sq r b) := by
  intro cx m i x s ts s' ts' hs ht hb hp h
  have ha := hs.1
  subst ha
  have hfmt : ∀ kw l v inn sq r b, (Expr.for_ {} kw l v inn sq r b).Simple o →
      Same (fmt o cx (.for_ {} kw l v inn sq r b))
      (.group false (tokDoc kw ⊹ .space ⊹ tokDoc l ⊹ fmt o (plainCx cx) v ⊹ .space ⊹ tokDoc inn ⊹ .space ⊹
          fmt o (plainCx cx) sq ⊹ tokDoc r ⊹ .space ⊹ bodyDoc b.isBraced true (fmt o (bodyCx cx) b))) := by
    intro kw l v inn sq r b hs
    rw [fmt]
    exact same_wrap hs cx
  obtain ⟨-, -, -, hsv, -, hss, -, hsb⟩ := id hs
  obtain ⟨m', hm, hmb, h0⟩ := (h.same (hfmt kw l v inn sq r b hs)).group
  obtain ⟨x1, _, s1, ts1, rfl, h1, h0⟩ := h0.cat
  obtain ⟨x2, _, s2, ts2, rfl, h2, h0⟩ := h0.cat
  obtain ⟨x3, _, s3, ts3, rfl, h3, h0⟩ := h0.cat
  obtain ⟨x4, _, s4, ts4, rfl, h4, h0⟩ := h0.cat
  obtain ⟨x5, _, s5, ts5, rfl, h5, h0⟩ := h0.cat
  obtain ⟨x6, _, s6, ts6, rfl, h6, h0⟩ := h0.cat
  obtain ⟨x7, _, s7, ts7, rfl, h7, h0⟩ := h0.cat
  obtain ⟨x8, _, s8, ts8, rfl, h8, h0⟩ := h0.cat
  obtain ⟨x9, _, s9, ts9, rfl, h9, h0⟩ := h0.cat
  obtain ⟨x10, x11, s10, ts10, rfl, h10, h11⟩ := h0.cat
  obtain ⟨kw', rfl, hko, hkl, rfl, hA1⟩ := h1.tokDoc
  obtain ⟨rfl, rfl, rfl⟩ := h2.space
  obtain ⟨l', rfl, hlo, hll, rfl, hA3⟩ := h3.tokDoc
  obtain ⟨rfl, v', hE4, hp4⟩ := hcv.use hsv rfl (by simp [plainCx]) hp.cons.2.cons.2 h4
  obtain ⟨rfl, rfl, rfl⟩ := h5.space
  obtain ⟨in', rfl, hio, hil, rfl, hA6⟩ := h6.tokDoc
  obtain ⟨rfl, rfl, rfl⟩ := h7.space
  obtain ⟨rfl, sq', hE8, hp8⟩ := hcs.use hss rfl (by simp [plainCx]) hp4.cons.2 h8
  obtain ⟨r', rfl, hro, hrl, rfl, hA9⟩ := h9.tokDoc
  obtain ⟨rfl, rfl, rfl⟩ := h10.space
  obtain ⟨rfl, b', hB⟩ := body_step hcb hsb rfl rfl (by simp [bodyCx]) (fun h => ⟨h, rfl⟩) hp8.cons.2 h11
  have hs' : (Expr.for_ {} kw' l' v' in' sq' r' b').Simple o :=
    ⟨rfl, hp.cons.1, hp.cons.2.cons.1, hE4.simple, hp4.cons.1, hE8.simple, hp8.cons.1, hB.simple⟩
  refine ⟨rfl, .for_ {} kw' l' v' in' sq' r' b', mkRe (by intros; simp) (by intros; simp) (fun _ => rfl) ?_ ?_ hs' ?_ ?_ ?_⟩
  · rw [hE4.toks, hE8.toks, hB.toks]; simp [Expr.tokens]
  · simpa [Expr.tokens, linesBefore] using hkl
  · rfl
  · obtain ⟨b'', k1, k2⟩ := hB.rew
    rw [newBody_loop] at k2
    obtain ⟨v'', k3, k4⟩ := hE4.rew
    obtain ⟨sq'', k5, k6⟩ := hE8.rew
    refine ⟨.for_ {} kw l v'' inn sq'' r (newBody b.isBraced true false b''), ?_, ?_⟩
    · rw [Rew]; exact unless_simple hs ⟨v'', sq'', b'', k3, k5, k1, rfl⟩
    · simp only [Expr.bare, bare_eq hko, bare_eq hlo, bare_eq hio, bare_eq hro, k2, k4, k6]
  · refine Again.same ?_ (hfmt kw l v inn sq r b hs) (hfmt kw' l' v' in' sq' r' b' hs')
    have fv := fixed_fmt v (plainCx cx) hsv rfl rfl
    have fs := fixed_fmt sq (plainCx cx) hss rfl rfl
    exact ((hA1.within rfl).cat (((Again.refl h2).within rfl).cat ((hA3.within rfl).cat ((hE4.again.within fv).cat
      (((Again.refl h5).within rfl).cat ((hA6.within rfl).cat (((Again.refl h7).within rfl).cat
      ((hE8.again.within fs).cat ((hA9.within rfl).cat (((Again.refl h10).within rfl).cat
      (hB.doc (by simp)))))))))))).group hm

/-! ## If statements -/

theorem braces_force {e : Bool} (hb : cx.braces ≠ some false) (h : cx.braces.getD e = false) :
    cx.braces = none ∧ e = false := by
  cases hc : cx.braces with
  | none => rw [hc] at h; exact ⟨rfl, h⟩
  | some b =>
    rw [hc] at h hb
    cases b with
    | true => cases h
    | false => exact absurd rfl hb

theorem braces_on {e : Bool} (hb : cx.braces ≠ some false) (h : e = true) : cx.braces.getD e = true := by
  cases hc : cx.braces.getD e with
  | true => rfl
  | false => rw [(braces_force hb hc).2] at h; exact h

theorem core_ite {a : Ann} {kw l r : Token} {c t : Expr} (hcc : CoreE o c) (hct : CoreE o t) :
    CoreE o (.ite a kw l c r t) := by
  intro cx m i x s ts s' ts' hs ht hb hp h
  have ha := hs.1
  subst ha
  have hfmt : ∀ kw l c r t, (Expr.ite {} kw l c r t).Simple o → Same (fmt o cx (.ite {} kw l c r t))
      (.group false (tokDoc kw ⊹ .space ⊹ tokDoc l ⊹ .group false (softBlock (fmt o (plainCx cx) c)) ⊹
          tokDoc r ⊹ .space ⊹
          bodyDoc t.isBraced (cx.braces.getD (forceBraces cx.effect t none)) (fmt o (bodyCx cx) t))) := by
    intro kw l c r b hs
    rw [fmt]
    exact same_wrap hs cx
  obtain ⟨-, -, -, hsc, -, hst⟩ := id hs
  obtain ⟨m', hm, hmb, h0⟩ := (h.same (hfmt kw l c r t hs)).group
  obtain ⟨x1, _, s1, ts1, rfl, h1, h0⟩ := h0.cat
  obtain ⟨x2, _, s2, ts2, rfl, h2, h0⟩ := h0.cat
  obtain ⟨x3, _, s3, ts3, rfl, h3, h0⟩ := h0.cat
  obtain ⟨x4, _, s4, ts4, rfl, h4, h0⟩ := h0.cat
  obtain ⟨x5, _, s5, ts5, rfl, h5, h0⟩ := h0.cat
  obtain ⟨x6, x7, s6, ts6, rfl, h6, h7⟩ := h0.cat
  obtain ⟨kw', rfl, hko, hkl, rfl, hA1⟩ := h1.tokDoc
  obtain ⟨rfl, rfl, rfl⟩ := h2.space
  obtain ⟨l', rfl, hlo, hll, rfl, hA3⟩ := h3.tokDoc
  obtain ⟨c', rfl, hc', hcr, hp4, hA4⟩ := cond_step hcc hsc rfl rfl hp.cons.2.cons.2 h4
  obtain ⟨r', rfl, hro, hrl, rfl, hA5⟩ := h5.tokDoc
  obtain ⟨rfl, rfl, rfl⟩ := h6.space
  obtain ⟨rfl, t', hB⟩ := body_step hct hst rfl rfl (by simp [bodyCx]) (fun h => ⟨h, rfl⟩) hp4.cons.2 h7
  have hs' : (Expr.ite {} kw' l' c' r' t').Simple o :=
    ⟨rfl, hp.cons.1, hp.cons.2.cons.1, hc', hp4.cons.1, hB.simple⟩
  refine ⟨rfl, .ite {} kw' l' c' r' t', mkRe (by intros; simp) (by intros; simp) (fun _ => rfl) ?_ ?_ hs' ?_ ?_ ?_⟩
  · rw [hB.toks]; simp [Expr.tokens]
  · simpa [Expr.tokens, linesBefore] using hkl
  · rfl
  · obtain ⟨t'', h8, h9⟩ := hB.rew
    obtain ⟨c'', h10, h11⟩ := hcr
    refine ⟨.ite {} kw l c'' r (newBody t.isBraced (cx.braces.getD (forceBraces cx.effect t none))
      (decide (m' = .expanded)) t''), ?_, ?_⟩
    · rw [Rew]; exact unless_simple hs ⟨c'', t'', _, h10, h8, rfl⟩
    · simp only [Expr.bare, bare_eq hko, bare_eq hlo, bare_eq hro, h9, h11]
  · refine Again.same ?_ (hfmt kw l c r t hs) (hfmt kw' l' c' r' t' hs')
    refine ((hA1.within rfl).cat (((Again.refl h2).within rfl).cat ((hA3.within rfl).cat (hA4.cat
      ((hA5.within rfl).cat (((Again.refl h6).within rfl).cat (hB.doc ?_))))))).group hm
    intro hn
    simp only [Bool.or_eq_false_iff, decide_eq_false_iff_not] at hn
    obtain ⟨hbn, hfb⟩ := braces_force hb hn.1.2
    have hh := head_eq (hB.head (.inr ⟨hn.1.2, hn.2⟩))
    rw [hbn]
    simp only [forceBraces, Bool.or_eq_false_iff] at hfb
    simp only [Option.getD_none, forceBraces, hB.lead, hh.1, hh.2.1, hfb.1.1.1.1, hfb.1.1.2, hfb.1.2, Bool.or_false]

theorem core_itee {a ea : Ann} {kw l r el : Token} {c t e : Expr} (hcc : CoreE o c) (hct : CoreE o t)
    (hce : CoreE o e) : CoreE o (.itee a kw l c r t ea el e) := by
  intro cx m i x s ts s' ts' hs ht hb hp h
  have ha := hs.1
  subst ha
  have ha := hs.2.1
  subst ha
  have hfmt : ∀ kw l c r t el e, (Expr.itee {} kw l c r t {} el e).Simple o →
      Same (fmt o cx (.itee {} kw l c r t {} el e))
      (.group false (tokDoc kw ⊹ .space ⊹ tokDoc l ⊹ .group false (softBlock (fmt o (plainCx cx) c)) ⊹
          tokDoc r ⊹ .space ⊹
          bodyDoc t.isBraced (cx.braces.getD (forceBraces cx.effect t (some (el, e)))) (fmt o (bodyCx cx) t) ⊹
          .space ⊹ nodeDoc {} (tokDoc el ⊹ .space ⊹
            bodyDoc (e.isBraced || e.isIf) (cx.braces.getD (forceBraces cx.effect t (some (el, e))))
              (fmt o { bodyCx cx with
                braces := if e.isIf then some (cx.braces.getD (forceBraces cx.effect t (some (el, e)))) else none } e))
            .nil)) := by
    intro kw l c r t el e hs
    rw [fmt]
    exact same_wrap hs cx
  obtain ⟨-, -, -, -, hsc, -, hst, -, hse⟩ := id hs
  obtain ⟨m', hm, hmb, h0⟩ := (h.same (hfmt kw l c r t el e hs)).group
  obtain ⟨x1, _, s1, ts1, rfl, h1, h0⟩ := h0.cat
  obtain ⟨x2, _, s2, ts2, rfl, h2, h0⟩ := h0.cat
  obtain ⟨x3, _, s3, ts3, rfl, h3, h0⟩ := h0.cat
  obtain ⟨x4, _, s4, ts4, rfl, h4, h0⟩ := h0.cat
  obtain ⟨x5, _, s5, ts5, rfl, h5, h0⟩ := h0.cat
  obtain ⟨x6, _, s6, ts6, rfl, h6, h0⟩ := h0.cat
  obtain ⟨x7, _, s7, ts7, rfl, h7, h0⟩ := h0.cat
  obtain ⟨x8, _, s8, ts8, rfl, h8, h0⟩ := h0.cat
  obtain ⟨x9, _, s9, ts9, rfl, h9, h0⟩ := (h0.same same_node).cat
  obtain ⟨x10, x11, s10, ts10, rfl, h10, h11⟩ := h0.cat
  obtain ⟨kw', rfl, hko, hkl, rfl, hA1⟩ := h1.tokDoc
  obtain ⟨rfl, rfl, rfl⟩ := h2.space
  obtain ⟨l', rfl, hlo, hll, rfl, hA3⟩ := h3.tokDoc
  obtain ⟨c', rfl, hc', hcr, hp4, hA4⟩ := cond_step hcc hsc rfl rfl hp.cons.2.cons.2 h4
  obtain ⟨r', rfl, hro, hrl, rfl, hA5⟩ := h5.tokDoc
  obtain ⟨rfl, rfl, rfl⟩ := h6.space
  obtain ⟨rfl, t', hB⟩ := body_step hct hst rfl rfl (by simp [bodyCx]) (fun h => ⟨h, rfl⟩) hp4.cons.2 h7
  have hp7 := hB.plain hp4.cons.2
  obtain ⟨rfl, rfl, rfl⟩ := h8.space
  obtain ⟨el', rfl, heo, hel, rfl, hA9⟩ := h9.tokDoc
  obtain ⟨rfl, rfl, rfl⟩ := h10.space
  generalize hF : cx.braces.getD (forceBraces cx.effect t (some (el, e))) = F at h7 h11 hB
  have hFif : e.isIf = true → F = true := by
    intro h
    rw [← hF]
    exact braces_on hb (by simp [forceBraces, h])
  have hFbr : e.isBraced = true → F = true := by
    intro h
    rw [← hF]
    exact braces_on hb (by simp [forceBraces, h])
  have hFt : t.isBraced = true → F = true := by
    intro h
    rw [← hF]
    exact braces_on hb (by simp [forceBraces, h])
  obtain ⟨rfl, e', hC⟩ := body_step (bcx := { bodyCx cx with braces := if e.isIf then some F else none })
    hce hse rfl rfl (by
      cases he : e.isIf with
      | true => rw [hFif he]; simp
      | false => simp) (by
      intro h
      simp only [Bool.or_eq_false_iff] at h
      exact ⟨h.1, by rw [h.2]; rfl⟩) hp7.cons.2 h11
  have hs' : (Expr.itee {} kw' l' c' r' t' {} el' e').Simple o :=
    ⟨rfl, rfl, hp.cons.1, hp.cons.2.cons.1, hc', hp4.cons.1, hB.simple, hp7.cons.1, hC.simple⟩
  refine ⟨rfl, .itee {} kw' l' c' r' t' {} el' e', mkRe (by intros; simp) (by intros; simp) (fun _ => rfl) ?_ ?_ hs' ?_ ?_ ?_⟩
  · rw [hB.toks, hC.toks]; simp [Expr.tokens]
  · simpa [Expr.tokens, linesBefore] using hkl
  · rfl
  · obtain ⟨t'', k1, k2⟩ := hB.rew
    obtain ⟨c'', k3, k4⟩ := hcr
    obtain ⟨e'', k5, k6⟩ := hC.rew
    refine ⟨.itee {} kw l c'' r (newBody t.isBraced F (decide (m' = .expanded)) t'') {} el
      (newBody (e.isBraced || e.isIf) F (decide (m' = .expanded)) e''), ?_, ?_⟩
    · rw [Rew]
      refine unless_simple hs ⟨c'', t'', e'', decide (m' = .expanded), k3, k1, ?_, ?_⟩
      · have : cx.core.braces.getD (forceBraces cx.core.effect t (some (el, e))) = F := hF
        rw [this]
        exact k5
      · have : cx.core.braces.getD (forceBraces cx.core.effect t (some (el, e))) = F := hF
        rw [this]
    · simp only [Expr.bare, bare_eq hko, bare_eq hlo, bare_eq hro, bare_eq heo, k2, k4, k6]
  · refine Again.same ?_ (hfmt kw l c r t el e hs) (hfmt kw' l' c' r' t' el' e' hs')
    rw [hF]
    generalize hF' : cx.braces.getD (forceBraces cx.effect t' (some (el', e'))) = F'
    have key : ((t.isBraced || F || decide (m' = .expanded)) = false → F' = false) ∧
        AgainIn m' i (bodyDoc (e.isBraced || e.isIf) F
          (fmt o { bodyCx cx with braces := if e.isIf then some F else none } e))
        (bodyDoc (e'.isBraced || e'.isIf) F'
          (fmt o { bodyCx cx with braces := if e'.isIf then some F' else none } e')) x11 := by
      have hag := hC.again
      cases hn : F || decide (m' = .expanded) with
      | true =>
        have hn' : F = true ∨ m' = .expanded := by simpa using hn
        have htb : t'.isBraced = true := hB.braced (by rw [Bool.or_assoc, hn, Bool.or_true])
        have hF1 : F' = true := by
          rw [← hF']
          exact braces_on hb (by simp [forceBraces, htb])
        refine ⟨(fun h => by rw [Bool.or_assoc, hn, Bool.or_true] at h; cases h), ?_⟩
        rw [Bool.or_assoc, hn, Bool.or_true] at hag
        have h2 : (e'.isBraced || e'.isIf) = true ∧
            (if e'.isIf then some F' else none) = (if e.isIf then some F else none) := by
          cases has : e.isBraced || e.isIf with
          | true =>
            have hh := head_eq (hC.head (.inl has))
            rw [hh.1, hh.2.1]
            refine ⟨has, ?_⟩
            cases hi : e.isIf with
            | true => rw [hFif hi, hF1]
            | false => rfl
          | false =>
            have hw := (hC.wrapped has hn').1
            have hni : e'.isIf = false := by
              cases e' <;> first | rfl | cases hw
            simp only [Bool.or_eq_false_iff] at has
            rw [hw, hni, has.2]
            exact ⟨rfl, rfl⟩
        rw [h2.1, h2.2]
        exact hag
      | false =>
        have hn' : F = false ∧ m' ≠ .expanded := by simpa using hn
        have hh := head_eq (hC.head (.inr hn'))
        have hh2 := head_eq (hB.head (.inr hn'))
        obtain ⟨hbn, hfb⟩ := braces_force hb (hF.trans hn'.1)
        simp only [forceBraces, Bool.or_eq_false_iff] at hfb
        have hel0 : leadingNewlineToken el' = false := by
          rw [plain_leading hp7.cons.1, hel]; rfl
        have hF0 : F' = false := by
          rw [← hF', hbn]
          simp only [Option.getD_none, forceBraces, hB.lead, hC.lead, hel0, hh.1, hh.2.1, hh2.1, hh2.2.1,
            hfb.1.1.1.1, hfb.1.1.2, hfb.1.2, hfb.2.1.2, hfb.2.2, Bool.or_false]
        refine ⟨fun _ => hF0, ?_⟩
        have has : (e.isBraced || e.isIf) = false := by simp [hfb.2.1.2, hfb.2.2]
        rw [has, hn'.1] at hag ⊢
        rw [hh.1, hh.2.1, has, hF0]
        have : decide (m' = PMode.expanded) = false := by simp [hn'.2]
        rw [this] at hag
        have hei : e.isIf = false := hfb.2.2
        simp only [hei, Bool.false_eq_true, if_false] at hag ⊢
        exact hag
    refine ((hA1.within rfl).cat (((Again.refl h2).within rfl).cat ((hA3.within rfl).cat (hA4.cat
      ((hA5.within rfl).cat (((Again.refl h6).within rfl).cat ((hB.doc key.1).cat (((Again.refl h8).within rfl).cat
      ?_)))))))).group hm
    refine AgainIn.same ?_ same_node same_node
    exact (hA9.within rfl).cat (((Again.refl h10).within rfl).cat key.2)

/-! ## Functions -/

theorem groupable_func {a pa : Ann} {kw l r : Token} {items : Items} {b : Expr} :
    groupable (.func a kw pa l items r b) = if b.isBraced then groupable b else true := by
  cases b <;> rfl

theorem core_func {a pa : Ann} {kw l r : Token} {items : Items} {b : Expr} (hper : o.persistent = true)
    (hci : ∀ p ∈ items.entries, CoreA o p.1) (hcb : CoreE o b) : CoreE o (.func a kw pa l items r b) := by
  intro cx m i x s ts s' ts' hs ht hb hp h
  have ha := hs.1
  subst ha
  have ha := hs.2.1
  subst ha
  have hfmt : ∀ fb kw l items r b, (Expr.func {} kw {} l items r b).Simple o →
      Same (fmt o { cx with flatParams := fb } (.func {} kw {} l items r b))
      (.group false (tokDoc kw ⊹ flatIf fb (paramsDoc o {} l (fmtItems o (plainCx cx) false items) r) ⊹ .space ⊹
          bodyDoc b.isBraced (leadingNewline b.tokens) (fmt o (bodyCx cx) b))) := by
    intro fb kw l items r b hs
    rw [fmt]
    exact same_wrap hs _
  obtain ⟨-, -, -, -, hsi, -, hsb⟩ := id hs
  obtain ⟨m', hm, hmb, h0⟩ := (h.same (hfmt cx.flatParams kw l items r b hs)).group
  obtain ⟨x1, _, s1, ts1, rfl, h1, h0⟩ := h0.cat
  obtain ⟨x2, _, s2, ts2, rfl, h2, h0⟩ := h0.cat
  obtain ⟨x3, x4, s3, ts3, rfl, h3, h4⟩ := h0.cat
  obtain ⟨kw', rfl, hko, hkl, rfl, hA1⟩ := h1.tokDoc
  obtain ⟨m2, -, -, h2', hflat⟩ := flat_step h2
  obtain ⟨rfl, l', items', r', hP⟩ := params_step hper hci hsi ⟨rfl, rfl, rfl, rfl⟩ hp.cons.2 h2'
  obtain ⟨rfl, rfl, rfl⟩ := h3.space
  have hp2 := hp.cons.2
  rw [hP.toks] at hp2
  obtain ⟨rfl, b', hB⟩ := body_step hcb hsb rfl rfl (by simp [bodyCx]) (fun h => ⟨h, rfl⟩)
    hp2.cons.2.append.2.cons.2 h4
  have hs' : (Expr.func {} kw' {} l' items' r' b').Simple o :=
    ⟨rfl, rfl, hp.cons.1, hp2.cons.1, hP.simple, hp2.cons.2.append.2.cons.1, hB.simple⟩
  obtain ⟨hfa, hfr⟩ := hflat _ hP.again
  have hbody := hB.doc (force' := leadingNewline b'.tokens) (fun _ => hB.lead)
  have hag : Again m i (fmt o cx (.func {} kw {} l items r b)) (fmt o cx (.func {} kw' {} l' items' r' b'))
      (x1 ++ (x2 ++ ([.space] ++ x4))) := by
    refine Again.same ?_ (hfmt cx.flatParams kw l items r b hs) (hfmt cx.flatParams kw' l' items' r' b' hs')
    refine ((hA1.within rfl).cat ((hfa.within ?_).cat (((Again.refl h3).within rfl).cat hbody))).group hm
    unfold flatIf
    split
    · rfl
    · exact fixed_params
  refine ⟨rfl, .func {} kw' {} l' items' r' b', ?_, ?_, hs', ?_, ?_, hag.prints, hag.calm, ?_, ?_⟩
  · rw [hP.toks, hB.toks]; simp [Expr.tokens]
  · simpa [Expr.tokens, linesBefore] using hkl
  · have hg : groupable (.func {} kw' {} l' items' r' b') = groupable (.func {} kw {} l items r b) := by
      rw [groupable_func, groupable_func]
      cases hbb : b.isBraced with
      | true =>
        have hh := head_eq (hB.head (.inl hbb))
        rw [hh.1, hbb, hh.2.2.2.2.2.2.2.2.1]
      | false =>
        by_cases hw : leadingNewline b.tokens = true ∨ m' = .expanded
        · rw [(hB.wrapped hbb hw).1, (hB.wrapped hbb hw).2]
          rfl
        · have hh := head_eq (hB.head (.inr (by
            rw [not_or] at hw
            exact ⟨by simpa using hw.1, hw.2⟩)))
          rw [hh.1, hbb]
          rfl
    unfold Expr.head
    rw [hg]
    rfl
  · obtain ⟨b'', k1, k2⟩ := hB.rew
    obtain ⟨items'', k3, k4⟩ := hP.rew
    refine ⟨.func {} kw {} l items'' r (newBody b.isBraced (leadingNewline b.tokens) (decide (m' = .expanded)) b''),
      ?_, ?_⟩
    · rw [Rew]; exact unless_simple hs ⟨items'', b'', _, k3, k1, rfl⟩
    · simp only [Expr.bare, bare_eq hko, bare_eq hP.lout, bare_eq hP.rout, k2, k4]
  · intro fb hfb
    refine Refines.same ?_ (hfmt fb kw' l' items' r' b' hs') (hfmt fb kw l items r b hs)
    refine RefIn.group (m := m') ?_
    refine (hA1.within rfl).ref.cat (((hfr fb ?_).ref ?_).cat (((Again.refl h3).within rfl).ref.cat hbody.ref))
    · intro h
      rcases hfb h with h | h
      · exact .inl (hm.1 h)
      · exact .inr h
    · unfold flatIf
      split
      · rfl
      · exact fixed_params
  · intro _ q q' hq
    exact hq

end

end Verif.Format
