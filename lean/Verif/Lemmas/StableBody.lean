import Verif.Lemmas.StableCalls

/-!
# Parameters and bodies in a formatted text
-/

namespace Verif.Format
open Verif.Syntax

variable {o : Opts}

/-! ## Tokens -/

theorem kind_of_outTok {t u : Token} (h : outTok u = outTok t) : u.kind = t.kind := congrArg Tok.kind h

theorem outTok_word {t u : Token} (hk : t.kind ≠ .stringContent) (h : outTok u = outTok t) : u.text = t.text := by
  have h1 := congrArg Tok.text h
  have hk' : u.kind ≠ .stringContent := by rw [kind_of_outTok h]; exact hk
  simpa [outTok, hk, hk'] using h1

theorem bare_eq {t u : Token} (h : outTok u = outTok t) : bareTok u = bareTok t := by
  rw [bareTok, h]; rfl

theorem plain_leading {t : Token} (h : Bland t) :
    leadingNewlineToken t = decide (0 < linesBeforeToken t) := by
  have h1 := h.1
  unfold leadingNewlineToken linesBeforeToken
  unfold hasComment at h1
  have h2 : t.leading.takeWhile (fun p => p.kind != .comment) = t.leading := by
    generalize t.leading = ps at h1
    induction ps with
    | nil => rfl
    | cons p ps ih =>
      simp only [List.any_cons, Bool.or_eq_false_iff] at h1
      simp only [List.takeWhile_cons, bne, h1.1, Bool.not_false, if_true]
      rw [show (List.takeWhile (fun p => !p.kind == PieceKind.comment) ps) = ps from ih h1.2]
  rw [h2]
  generalize t.leading = ps
  rw [Bool.eq_iff_iff]
  simp [List.any_eq_true, List.length_pos_iff_exists_mem]

theorem leading_lines {ts : List Token} (h : AllPlain ts) :
    leadingNewline ts = decide (0 < linesBefore ts) := by
  cases ts with
  | nil => rfl
  | cons t ts => exact plain_leading h.cons.1

section
variable {vcx : Cx} {m : PMode} {i : Nat} {x : List El} {s s' : W} {ts ts' : List Token}

/-! ## Parameters -/

theorem paramsTail_args (ds : List ItemDoc) : paramsTail ds = argsTail ds := by
  induction ds with
  | nil => rfl
  | cons d ds ih =>
    simp only [paramsTail, argsTail, ih]
    congr 2
    by_cases h : d.lines ≤ 1
    · rw [if_pos h, if_neg (by omega)]
    · rw [if_neg h, if_pos (by omega)]

theorem paramsJoin_args (ds : List ItemDoc) : paramsJoin ds = argsJoin ds := by
  cases ds with
  | nil => rfl
  | cons d ds => simp only [paramsJoin, argsJoin, paramsTail_args]

theorem params_cons {l r : Token} {en : List Entry'} {p : Entry'} {ps : List Entry'} (h : en = p :: ps) :
    Same (paramsDoc o {} l (en.map (mkItem o vcx false)) r)
      (.group (o.persistent && leadingNewline p.1.tokens)
        (tokDoc l ⊹ softBlock (argsJoin (en.map (mkItem o vcx false))) ⊹ tokDoc r)) := by
  subst h
  unfold paramsDoc
  rw [paramsJoin_args]
  exact same_node

structure ReParams (o : Opts) (vcx : Cx) (m : PMode) (i : Nat) (l : Token) (items : Items)
    (r : Token) (x : List El) (s : W) (ts ts' : List Token) (l' : Token) (items' : Items) (r' : Token) :
    Prop where
  toks : ts = l' :: (items'.tokens ++ r' :: ts')
  lines : linesBeforeToken l' = s.n
  lout : outTok l' = outTok l
  rout : outTok r' = outTok r
  simple : items'.Simple o
  rew : ∃ items'', RewItems o vcx.core false items items'' ∧ items''.bare = items'.bare
  again : Again m i (paramsDoc o {} l (fmtItems o vcx false items) r)
    (paramsDoc o {} l' (fmtItems o vcx false items') r') x

theorem params_step {l r : Token} {items : Items} (hper : o.persistent = true)
    (hc : ∀ p ∈ items.entries, CoreA o p.1) (hs : items.Simple o) (hv : ArgCx vcx) (hp : AllPlain ts)
    (h : Step m i (paramsDoc o {} l (fmtItems o vcx false items) r) x s ts s' ts') :
    s' = .tok ∧ ∃ l' items' r', ReParams o vcx m i l items r x s ts ts' l' items' r' := by
  cases hen : items.entries with
  | nil =>
    have : items = .nil := by cases items <;> simp [Items.entries] at hen ⊢
    subst this
    have hsame : ∀ l r, Same (paramsDoc o {} l (fmtItems o vcx false .nil) r)
      (tokDoc l ⊹ .nil ⊹ tokDoc r) := fun _ _ => same_node
    obtain ⟨x1, x2, s1, ts1, rfl, h1, h2⟩ := (h.same (hsame l r)).cat
    obtain ⟨x3, x4, s2, ts2, rfl, h3, h4⟩ := h2.cat
    obtain ⟨l', rfl, hlo, hl, rfl, hA⟩ := h1.tokDoc
    obtain ⟨rfl, rfl, rfl⟩ := h3.nil
    obtain ⟨r', rfl, hro, hrl, rfl, hagr⟩ := h4.tokDoc
    exact ⟨rfl, l', .nil, r', rfl, hl, hlo, hro, trivial, ⟨.nil, by rw [RewItems], rfl⟩,
      (hA.cat (Again.cat (.refl h3) hagr)).same (hsame l r) (hsame l' r')⟩
  | cons p ps =>
    have hse := simple_entries items hs
    have hsp := seps_entries items
    rw [fmtItems_map hv.flat] at h
    obtain ⟨m', hm, hb, h1⟩ := (h.same (params_cons hen)).group
    obtain ⟨x1, x2, s1, ts1, rfl, h2, h3⟩ := h1.cat
    obtain ⟨x3, x4, s2, ts2, rfl, h4, h5⟩ := h3.cat
    obtain ⟨l', rfl, hlo, hl, rfl, hA⟩ := h2.tokDoc
    obtain ⟨en', hA1, hA2, hhd, rfl, hag⟩ := soft_step (fun p hp => ⟨hc p hp, hse p hp⟩) hv hsp hp.cons.2 h4
    obtain ⟨r', rfl, hro, hrl, rfl, hagr⟩ := h5.tokDoc
    obtain ⟨items', rfl, hs', hrew⟩ := rebuild items hA1
    refine ⟨rfl, l', items', r', by rw [entries_toks], hl, hlo, hro, hs', hrew, ?_⟩
    have hA1' := hA1
    rw [hen] at hA1'
    obtain ⟨p', ps', hen', hE, -⟩ := hA1'.cons_left
    rw [fmtItems_map hv.flat, fmtItems_map hv.flat]
    refine Again.same ?_ (params_cons hen) (params_cons hen')
    have hln := hhd p (by rw [hen]; rfl) p' (by rw [hen']; rfl)
    have hpp : AllPlain p.1.tokens := (Arg.Simple.ok _ (hse p (by simp [hen]))).2.2.1
    have hpp' : AllPlain p'.1.tokens := (Arg.Simple.ok _ hE.simple).2.2.1
    have hlead : leadingNewline p'.1.tokens = (!p.1.isHole && decide (m' = .expanded)) := by
      rw [leading_lines hpp', hln]
      cases p.1.isHole
      · by_cases hm : m' = .expanded <;> simp [hm]
      · simp
    refine Again.group (hA.cat (hag.cat hagr)) ⟨hm.1, hm.2.1, ?_⟩ ?_ ?_
    · intro _ hx
      simp only [hper, Bool.true_and, hlead, Bool.and_eq_true, decide_eq_true_eq] at hx
      exact hx.2
    · intro hx
      rw [hlead, hm.1 hx]
      simp
    · intro hx
      have hmb : m ≠ .bare := by
        intro hh
        rw [hb hh] at hx
        cases hx
      have := hm.2.2 hmb hx
      simp only [hper, Bool.true_and] at hx ⊢
      rw [hlead, this]
      cases hh : p.1.isHole with
      | false => simp
      | true =>
        rw [leading_lines hpp, hole_lines hh] at hx
        cases hx

/-- Parameters of a function that may be a grouped argument. -/
def flatIf (b : Bool) (d : Doc) : Doc := if b then .noSoft d else d

theorem flat_step {b : Bool} {d : Doc} (h : Step m i (flatIf b d) x s ts s' ts') :
    ∃ m', (m = .bare ∨ b = true → m' = .bare) ∧ (m' = m ∨ m' = .bare) ∧ Step m' i d x s ts s' ts' ∧
      ∀ d', Again m' i d d' x → Again m i (flatIf b d) (flatIf b d') x ∧
        ∀ b', (b' = true → m = .bare ∨ b = true) → Refines (flatIf b' d') (flatIf b' d) := by
  cases b with
  | false =>
    refine ⟨m, by simp, .inl rfl, h, fun d' ha => ⟨ha, ?_⟩⟩
    intro b' hb'
    cases b' with
    | false => exact ha.refines
    | true =>
      rcases hb' rfl with hb' | hb'
      · exact ha.refines.noSoft (h.calm hb')
      · cases hb'
  | true =>
    obtain ⟨h1, h2, h3⟩ := h.prints
    refine ⟨.bare, fun _ => rfl, .inr rfl, ⟨h1, fun _ => h2, fun _ => h3, h.walks⟩, fun d' ha => ⟨?_, ?_⟩⟩
    · exact ⟨⟨ha.prints, h2, ha.calm rfl⟩, fun _ => ha.calm rfl, ha.refines.noSoft h3⟩
    · intro b' hb'
      cases b' with
      | false => exact ha.refines
      | true => exact ha.refines.noSoft h3

/-! ## Bodies -/

/-- The context of a statement makes no difference. -/
theorem fmt_dir {e : Expr} (h : e.Simple o) {cx : Cx} (b : Bool) : fmt o { cx with dir := b } e = fmt o cx e := by
  have hw : ∀ e : Expr, e.Simple o → ∀ d, wrapDoc o { cx with dir := b } e d = wrapDoc o cx e d := by
    intro e h d
    unfold wrapDoc
    rw [simple_suppressed h, simple_suppressed h]
  have hd : ∀ c dr, hasDirective o c {} dr = false := by
    intro c dr
    simp [hasDirective]
  cases e with
  | str a p c l => cases c <;> exact hw _ h _
  | braced a l es r =>
    rw [fmt, fmt, hw _ h, fmts_cx (cx := cx) (cx' := { cx with dir := b }) rfl]
    rfl
  | binary a x p y =>
    have ha := h.1
    subst ha
    rw [fmt, fmt, hw _ h]
    simp only [hd]
    rfl
  | call a k f aa l items r =>
    have ha := h.1
    subst ha
    rw [fmt, fmt, hw _ h]
    simp only [hd]
    rfl
  | _ =>
    rw [fmt, fmt, hw _ h]
    try rfl

theorem Refines.braces {d d' : Doc} (h : Refines d' d) (b : Bool) : Refines (braceDoc b d') (braceDoc b d) := by
  cases b with
  | true => exact (Refines.refl _).cat (h.hardBlock.cat (.refl _))
  | false => exact (Refines.refl _).cat (h.softBlock.cat (.refl _))

/-- A statement in braces. -/
theorem same_wrapped {bcx : Cx} {l r : Token} {e : Expr} (hs : (Expr.braced {} l (.cons e .nil) r).Simple o)
    (hb : e.isBraced = false) (hcx : bcx = { eq := true, inArg := bcx.inArg }) :
    Same (fmt o bcx (.braced {} l (.cons e .nil) r)) (tokDoc l ⊹ hardBlock (fmt o bcx e) ⊹ tokDoc r) := by
  rw [fmt]
  refine (same_wrap hs bcx).trans ?_
  have hc : curlyCurly bcx.inArg (.cons e .nil) = none := by
    unfold curlyCurly
    split
    · rename_i heq
      simp only [Exprs.cons.injEq, and_true] at heq
      subst heq
      cases hb
    · rfl
  have he : fmt o { dir := true, eq := true, inArg := bcx.inArg, effect := false || decide (0 < Exprs.nil.length) } e =
      fmt o bcx e := by
    have h0 : (Cx.mk true (false || decide (0 < Exprs.nil.length)) true bcx.inArg false false none none false) =
        { bcx with dir := true } := by
      rw [hcx]; rfl
    rw [h0, fmt_dir hs.2.2.1.1]
  simp only [bracedDoc, hc, fmtExprs, he, if_true]
  have key : Same (.nil ⊹ fmt o bcx e ⊹ .nil) (fmt o bcx e) := by
    refine ⟨fun m i x => ?_, ?_, ?_⟩
    · rw [prints_nil_cat, prints_cat_nil]
    · simp [Doc.willBreak]
    · simp [Doc.fixed]
  refine ⟨fun m i x => ⟨?_, ?_⟩, ?_, ?_⟩
  · rintro ⟨x1, _, rfl, h1, x2, x3, rfl, ⟨y1, y2, rfl, ⟨z1, z2, rfl, h2, h3⟩, h4⟩, h5⟩
    exact ⟨x1, _, rfl, h1, _, x3, rfl, ⟨_, y2, rfl, ⟨z1, z2, rfl, h2, (key.prints _ _ _).1 h3⟩, h4⟩, h5⟩
  · rintro ⟨x1, _, rfl, h1, x2, x3, rfl, ⟨y1, y2, rfl, ⟨z1, z2, rfl, h2, h3⟩, h4⟩, h5⟩
    exact ⟨x1, _, rfl, h1, _, x3, rfl, ⟨_, y2, rfl, ⟨z1, z2, rfl, h2, (key.prints _ _ _).2 h3⟩, h4⟩, h5⟩
  · have := key.breaks
    simp [hardBlock, Doc.willBreak] at this ⊢
  · have := key.fixed
    simp [hardBlock, Doc.fixed] at this ⊢

/-- What is read where a body was printed; `nb`: it has braces now. -/
structure ReB (o : Opts) (bcx : Cx) (as force : Bool) (m : PMode) (i : Nat) (b : Expr) (x : List El)
    (ts ts' : List Token) (b' : Expr) : Prop where
  toks : ts = b'.tokens ++ ts'
  lines : linesBefore b'.tokens = 0
  simple : b'.Simple o
  rew : ∃ b'', Rew o bcx.core b b'' ∧ (newBody as force (decide (m = .expanded)) b'').bare = b'.bare
  head : (as = true ∨ force = false ∧ m ≠ .expanded → b'.head = b.head)
  wrapped : as = false → force = true ∨ m = .expanded → b'.isBraced = true ∧ groupable b' = true
  again : AgainIn m i (bodyDoc as force (fmt o bcx b))
    (bodyDoc (as || force || decide (m = .expanded)) false (fmt o bcx b')) x

theorem wrapE_bare {l r : Token} {e e' : Expr} (hl : outTok l = lBrace) (hr : outTok r = rBrace)
    (h : e.bare = e'.bare) : (wrapE e).bare = (Expr.braced {} l (.cons e' .nil) r).bare := by
  simp only [wrapE, Expr.bare, Exprs.bare, h, bareTok, hl, hr]
  rfl

theorem body_step {bcx : Cx} {as force : Bool} {b : Expr} (hcb : CoreE o b) (hs : b.Simple o)
    (ht : bcx.table = none) (hch : bcx.chain = false) (hbr : bcx.braces ≠ some false)
    (has : as = false → b.isBraced = false ∧ bcx = { eq := true, inArg := bcx.inArg })
    (hp : AllPlain ts) (h : Step m i (bodyDoc as force (fmt o bcx b)) x .tok ts s' ts') :
    s' = .tok ∧ ∃ b', ReB o bcx as force m i b x ts ts' b' := by
  have hfix : (fmt o bcx b).fixed = true := fixed_fmt b bcx hs ht (by rw [hch]; rfl)
  cases as with
  | true =>
    obtain ⟨rfl, e', hE⟩ := hcb bcx m i x .tok ts s' ts' hs ht hbr hp h
    refine ⟨rfl, e', hE.toks, hE.lines, hE.simple, ?_, fun _ => hE.head, (fun h => by cases h), ?_⟩
    · obtain ⟨b'', h1, h2⟩ := hE.rew
      exact ⟨b'', h1, h2⟩
    · have href := hE.refines bcx.flatParams (fun h => .inr h)
      exact Again.within ⟨hE.prints, hE.calm, href⟩ hfix
  | false =>
    obtain ⟨hnb, hcx⟩ := has rfl
    -- braces are printed
    have key : ∀ {l1 l2 : Line}, (l1 = .hard ∨ m = .expanded ∧ l1 = .soft) → l2 = l1 → m ≠ .bare →
        Step m i (.tok lBrace ⊹ (.indent (.line l1 ⊹ fmt o bcx b) ⊹ .line l2) ⊹ .tok rBrace) x .tok ts s' ts' →
        s' = .tok ∧ ∃ l' b' r', ts = (Expr.braced {} l' (.cons b' .nil) r').tokens ++ ts' ∧
          linesBeforeToken l' = 0 ∧ outTok l' = lBrace ∧ outTok r' = rBrace ∧
          (Expr.braced {} l' (.cons b' .nil) r').Simple o ∧ b'.head = b.head ∧
          (∃ b'', Rew o bcx.core b b'' ∧ b''.bare = b'.bare) ∧
          Prints m i (fmt o bcx (Expr.braced {} l' (.cons b' .nil) r')) x ∧
          Refines (fmt o bcx b') (fmt o bcx b) := by
      intro l1 l2 hl1 hl2 hmb h
      subst hl2
      have hline : ∀ s : W, s.line m l2 = s.nl false := by
        intro s
        rcases hl1 with rfl | ⟨hm, rfl⟩
        · rfl
        · simp only [W.line, hm, if_true]
      have hels : ∀ i, lineEls m i l2 = [.nl false i] := by
        intro i
        rcases hl1 with rfl | ⟨hm, rfl⟩
        · rfl
        · simp only [lineEls, hm, if_true]
      obtain ⟨x1, x2, s1, ts1, rfl, h1, h2⟩ := h.cat
      obtain ⟨x3, x4, s2, ts2, rfl, h3, h4⟩ := h2.cat
      obtain ⟨x5, x6, s3, ts3, rfl, h5, h6⟩ := h3.cat
      obtain ⟨x7, x8, s4, ts4, rfl, h7, h8⟩ := h5.indent.cat
      obtain ⟨l', rfl, hlo, hl, rfl, rfl⟩ := h1.tok
      obtain ⟨hs7, rfl, -⟩ := h7.line
      obtain ⟨hs6, rfl, -⟩ := h6.line
      obtain ⟨rfl, b', hE⟩ := hcb bcx m (i + 1) x8 _ _ s3 _ hs ht hbr hp.cons.2 h8
      obtain ⟨r', hts, hro, hrl, rfl, rfl⟩ := h4.tok
      have hp2 := hp.cons.2
      rw [hE.toks, hts] at hp2
      have hsim : (Expr.braced {} l' (.cons b' .nil) r').Simple o :=
        ⟨rfl, hp.cons.1, ⟨hE.simple, trivial⟩, hp2.append.2.cons.1⟩
      refine ⟨rfl, l', b', r', ?_, hl, hlo, hro, hsim, hE.head, hE.rew, ?_, hE.refines bcx.flatParams (fun h => .inr h)⟩
      · simp only [Expr.tokens, Exprs.tokens]
        rw [hE.toks, hts]
        simp
      · rw [(same_wrapped hsim (by rw [(head_eq hE.head).1]; exact hnb) hcx).prints]
        have e7 : x7 = lineEls m (i + 1) l2 := h7.prints
        have e6 : x6 = lineEls m i l2 := h6.prints
        refine ⟨_, _, rfl, ?_, _, _, rfl, ⟨_, _, rfl, ⟨_, _, rfl, ?_, hE.prints⟩, ?_⟩, ?_⟩
        · show _ = _
          rw [hlo]
        · rw [e7, hels]; rfl
        · rw [e6, hels]; rfl
        · show _ = _
          rw [hro]
    have hgr : ∀ {l r : Token} {e : Expr}, e.isBraced = false →
        groupable (.braced {} l (.cons e .nil) r) = true := by
      intro l r e he
      simp only [groupable, groupableBraces]
      unfold curlyCurly
      split
      · rename_i h1
        simp only [Exprs.cons.injEq, and_true] at h1
        subst h1
        cases he
      · rfl
    cases force with
    | true =>
      have hmb : m ≠ .bare := by
        intro hm
        have := h.calm hm
        simp [bodyDoc, braceDoc, hardBlock, Doc.willBreak] at this
      obtain ⟨rfl, l', b', r', htk, hl, hlo, hro, hsim, hhd, ⟨b'', hr1, hr2⟩, hpr, href⟩ :=
        key (l1 := .hard) (.inl rfl) rfl hmb h
      have hnb' : b'.isBraced = false := by rw [(head_eq hhd).1]; exact hnb
      refine ⟨rfl, _, htk, by simpa [Expr.tokens, linesBefore] using hl, hsim, ⟨b'', hr1, ?_⟩, ?_, ?_, ?_⟩
      · exact wrapE_bare hlo hro hr2
      · rintro (h | ⟨h, -⟩) <;> cases h
      · intro _ _
        exact ⟨rfl, hgr hnb'⟩
      · have hS := same_wrapped hsim hnb' hcx
        have hlb : tokDoc l' = .tok lBrace := by rw [tokDoc, hlo]
        have hrb : tokDoc r' = .tok rBrace := by rw [tokDoc, hro]
        have hag : Again m i (bodyDoc false true (fmt o bcx b))
            (fmt o bcx (.braced {} l' (.cons b' .nil) r')) x := by
          refine ⟨hpr, fun h => absurd h hmb, ?_⟩
          refine Refines.same (d := bodyDoc false true (fmt o bcx b)) ?_ hS ⟨fun _ _ _ => Iff.rfl, rfl, rfl⟩
          rw [hlb, hrb]
          exact (Refines.refl _).cat (href.hardBlock.cat (.refl _))
        exact hag.within (fixed_braces true hfix rfl)
    | false =>
      by_cases hm : m = .expanded
      · subst hm
        have h' : Step .expanded i (.tok lBrace ⊹ (.indent (.line .soft ⊹ fmt o bcx b) ⊹ .line .soft) ⊹ .tok rBrace)
            x .tok ts s' ts' := by
          refine ⟨?_, h.inline, (fun h => by cases h), h.walks⟩
          obtain ⟨x1, _, rfl, h1, x2, x3, rfl, h2, h3⟩ := h.prints
          refine ⟨x1, _, rfl, ?_, x2, x3, rfl, h2, ?_⟩
          · rcases h1 with ⟨-, h1⟩ | ⟨h1, -⟩
            · exact h1
            · exact absurd rfl h1
          · rcases h3 with ⟨-, h3⟩ | ⟨h3, -⟩
            · exact h3
            · exact absurd rfl h3
        obtain ⟨rfl, l', b', r', htk, hl, hlo, hro, hsim, hhd, ⟨b'', hr1, hr2⟩, hpr, href⟩ :=
          key (l1 := .soft) (.inr ⟨rfl, rfl⟩) rfl (by decide) h'
        have hnb' : b'.isBraced = false := by rw [(head_eq hhd).1]; exact hnb
        refine ⟨rfl, _, htk, by simpa [Expr.tokens, linesBefore] using hl, hsim, ⟨b'', hr1, ?_⟩, ?_, ?_, ?_⟩
        · exact wrapE_bare hlo hro hr2
        · rintro (h | ⟨-, h⟩)
          · cases h
          · exact absurd rfl h
        · intro _ _
          exact ⟨rfl, hgr hnb'⟩
        · have hS := same_wrapped hsim hnb' hcx
          refine ⟨hpr, (fun h => by cases h), ?_⟩
          have hb1 : bodyDoc (false || false || decide (PMode.expanded = .expanded)) false
            (fmt o bcx (.braced {} l' (.cons b' .nil) r')) = fmt o bcx (.braced {} l' (.cons b' .nil) r') := rfl
          rw [hb1]
          unfold RefIn
          rw [if_pos rfl]
          refine ⟨?_, ?_⟩
          · intro m2 j z hm2 hz
            rw [hS.prints] at hz
            obtain ⟨x1, _, rfl, h1, x2, x3, rfl, ⟨y1, y2, rfl, ⟨z1, z2, rfl, h2, h3⟩, h4⟩, h5⟩ := hz
            refine ⟨x1, _, rfl, .inl ⟨rfl, ?_⟩, _, x3, rfl, ⟨_, y2, rfl, ⟨z1, z2, rfl, h2, ?_⟩, h4⟩,
              .inl ⟨rfl, ?_⟩⟩
            · have h1 : x1 = [.tok (outTok l')] := h1
              rw [hlo] at h1
              exact h1
            · exact Doc.fixed.prints hfix hm2 (by decide) (href m2 _ z2 (fun h => absurd h hm2) h3)
            · have h5 : x3 = [.tok (outTok r')] := h5
              rw [hro] at h5
              exact h5
          · intro j z hi hz
            rw [hS.prints] at hz
            obtain ⟨x1, _, rfl, h1, x2, x3, rfl, ⟨y1, y2, rfl, ⟨z1, z2, rfl, h2, h3⟩, h4⟩, h5⟩ := hz
            have h2 : z1 = [.nl false (j + 1)] := h2
            subst h2
            simp [El.isInline] at hi
      · obtain ⟨x1, x2, s1, ts1, rfl, h1, h2⟩ := Step.cat h
        obtain ⟨x3, x4, s2, ts2, rfl, h3, h4⟩ := h2.cat
        obtain ⟨x5, x6, s3, ts3, rfl, h5, h6⟩ := h3.cat
        obtain ⟨x7, x8, s4, ts4, rfl, h7, h8⟩ := h5.indent.cat
        have e1 : x1 = [] := by
          rcases h1.prints with ⟨h, -⟩ | ⟨-, h⟩
          · exact absurd h hm
          · exact h
        have e4 : x4 = [] := by
          rcases h4.prints with ⟨h, -⟩ | ⟨-, h⟩
          · exact absurd h hm
          · exact h
        subst e1 e4
        have w1 := h1.walks
        have w4 := h4.walks
        cases w1
        cases w4
        obtain ⟨hs7, rfl, -⟩ := h7.line
        obtain ⟨hs6, rfl, -⟩ := h6.line
        simp only [W.line, if_neg hm] at hs7 hs6
        subst hs7
        obtain ⟨rfl, b', hE⟩ := hcb bcx m (i + 1) x8 _ _ s3 _ hs ht hbr hp h8
        refine ⟨hs6, b', hE.toks, hE.lines, hE.simple, ?_, fun _ => hE.head, ?_, ?_⟩
        · obtain ⟨b'', hr1, hr2⟩ := hE.rew
          refine ⟨b'', hr1, ?_⟩
          simpa [newBody, hm] using hr2
        · rintro - (h | h)
          · cases h
          · exact absurd h hm
        · have href := hE.refines bcx.flatParams (fun h => .inr h)
          have hd : (false || false || decide (m = .expanded)) = false := by simp [hm]
          rw [hd]
          refine ⟨?_, ?_, ?_⟩
          · exact ⟨[], _, rfl, h1.prints, _, [], rfl, ⟨_, _, rfl, ⟨_, _, rfl, h7.prints, hE.prints⟩, h6.prints⟩,
              h4.prints⟩
          · intro hb
            have := hE.calm hb
            simp [bodyDoc, braceDoc, softBlock, Doc.willBreak, this]
          · unfold RefIn
            rw [if_neg hm]
            exact href.braces false

end

end Verif.Format
