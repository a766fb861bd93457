import Verif.Lemmas.StableBody

/-!
# Expressions in a formatted text
-/

namespace Verif.Format
open Verif.Syntax

variable {o : Opts}

theorem simple_kept {e : Expr} (h : e.Simple o) (cx : Cx) : kept o cx e = false := by
  unfold kept
  rw [simple_suppressed h]
  simp

theorem unless_simple {e e' : Expr} {cx : Cx} {P : Prop} (h : e.Simple o) (hp : P) :
    Unless (kept o cx e) e e' P := by
  unfold Unless
  rw [simple_kept h]
  exact hp

theorem firstRight_not {e r : Expr} (h : e.isChain = false) : firstRight e r = r := by
  cases e with
  | binary a x p y =>
    simp only [Expr.isChain] at h
    simp only [firstRight, h, Bool.false_eq_true, if_false]
  | _ => rfl

section
variable {cx : Cx} {m : PMode} {i : Nat} {x : List El} {s s' : W} {ts ts' : List Token}

theorem ReE.again {e e' : Expr} (h : ReE o cx m i e x s ts ts' e') : Again m i (fmt o cx e) (fmt o cx e') x :=
  ⟨h.prints, h.calm, h.refines cx.flatParams (fun h => .inr h)⟩

theorem mkRe {e e' : Expr} (hf : ∀ a kw pa l items r b, e ≠ .func a kw pa l items r b)
    (hf' : ∀ a kw pa l items r b, e' ≠ .func a kw pa l items r b) (hc : cx.chain = true → e.isChain = false)
    (toks : ts = e'.tokens ++ ts') (lines : linesBefore e'.tokens = s.n) (simple : e'.Simple o)
    (head : e'.head = e.head) (rew : ∃ e'', Rew o cx.core e e'' ∧ e''.bare = e'.bare)
    (again : Again m i (fmt o cx e) (fmt o cx e') x) : ReE o cx m i e x s ts ts' e' := by
  refine ⟨toks, lines, simple, head, rew, again.prints, again.calm, ?_, ?_⟩
  · intro b _
    rw [fmt_flat cx b hf, fmt_flat cx b hf']
    exact again.refines
  · intro hch r r' hb
    have h1 := hc hch
    rw [firstRight_not h1, firstRight_not (by rw [(head_eq head).2.2.2.1]; exact h1)]
    exact hb

/-- A part of an expression. -/
theorem CoreE.use {e : Expr} (hc : CoreE o e) (hs : e.Simple o) (ht : cx.table = none)
    (hb : cx.braces ≠ some false) (hp : AllPlain ts) (h : Step m i (fmt o cx e) x s ts s' ts') :
    s' = .tok ∧ ∃ e', ReE o cx m i e x s ts ts' e' ∧ AllPlain ts' := by
  obtain ⟨h1, e', hE⟩ := hc cx m i x s ts s' ts' hs ht hb hp h
  have hp' := hp
  rw [hE.toks] at hp'
  exact ⟨h1, e', hE, hp'.append.2⟩

/-! ## Atoms -/

theorem core_atom {a : Ann} {k : Kind} {t : Token} : CoreE o (.atom a k t) := by
  intro cx m i x s ts s' ts' hs ht hb hp h
  have ha := hs.1
  subst ha
  rw [fmt] at h
  obtain ⟨u, rfl, hu, hl, rfl, hA⟩ := (h.same (same_wrap hs cx)).tokDoc
  have hpu := hp.cons.1
  have hs' : (Expr.atom {} k u).Simple o := ⟨rfl, hpu, by rw [kind_of_outTok hu]; exact hs.2.2⟩
  refine ⟨rfl, .atom {} k u, mkRe (by intros; simp) (by intros; simp) (fun _ => rfl) rfl hl hs' ?_ ?_ ?_⟩
  · have := outTok_word hs.2.2 hu
    unfold Expr.head
    cases k <;> simp [Expr.isBraced, Expr.isIf, Expr.isTerminal, Expr.isChain, Expr.isCall, Expr.isStr,
      Expr.isSym, Expr.isCup, groupable, calleeName, this]
  · exact ⟨.atom {} k t, by rw [Rew], by simp only [Expr.bare, bare_eq hu]⟩
  · rw [fmt, fmt]
    exact hA.same (same_wrap hs cx) (same_wrap hs' cx)

theorem core_str {a : Ann} {p l : Token} {c : Option Token} : CoreE o (.str a p c l) := by
  intro cx m i x s ts s' ts' hs ht hb hp h
  have ha := hs.1
  subst ha
  have hfmt : ∀ p c l, (Expr.str {} p c l).Simple o → Same (fmt o cx (.str {} p c l))
      (tokDoc p ⊹ (match c with | some t => tokDoc t | none => .nil) ⊹ tokDoc l) := by
    intro p c l hs
    cases c <;> exact same_wrap hs cx
  obtain ⟨x1, x2, s1, ts1, rfl, h1, h2⟩ := (h.same (hfmt p c l hs)).cat
  obtain ⟨x3, x4, s2, ts2, rfl, h3, h4⟩ := h2.cat
  obtain ⟨p', rfl, hpo, hpl, rfl, hA⟩ := h1.tokDoc
  have key : s2 = .tok ∧ ∃ c', ts1 = c'.toList ++ ts2 ∧ (∀ t ∈ c', Bland t) ∧ c'.map outTok = c.map outTok ∧
      Again m i (match c with | some t => tokDoc t | none => .nil)
        (match c' with | some t => tokDoc t | none => .nil) x3 := by
    cases c with
    | none =>
      obtain ⟨rfl, rfl, rfl⟩ := h3.nil
      exact ⟨rfl, none, rfl, by simp, rfl, .refl h3⟩
    | some t =>
      obtain ⟨u, rfl, huo, hul, rfl, hA3⟩ := h3.tokDoc
      refine ⟨rfl, some u, rfl, ?_, by simp [huo], hA3⟩
      rintro _ ⟨⟩
      exact hp.cons.2.cons.1
  obtain ⟨rfl, c', rfl, hcp, hco, hA3⟩ := key
  obtain ⟨l', rfl, hlo, hll, rfl, hA4⟩ := h4.tokDoc
  have hs' : (Expr.str {} p' c' l').Simple o := ⟨rfl, hp.cons.1, hcp, hp.cons.2.append.2.cons.1⟩
  refine ⟨rfl, .str {} p' c' l', mkRe (by intros; simp) (by intros; simp) (fun _ => rfl) ?_ ?_ hs' ?_ ?_ ?_⟩
  · cases c' <;> simp [Expr.tokens]
  · simpa [Expr.tokens, linesBefore] using hpl
  · rfl
  · refine ⟨.str {} p c l, by rw [Rew], ?_⟩
    simp only [Expr.bare, bare_eq hpo, bare_eq hlo]
    cases c <;> cases c' <;> simp at hco ⊢
    exact (bare_eq hco).symm
  · exact (hA.cat (hA3.cat hA4)).same (hfmt p c l hs) (hfmt p' c' l' hs')

/-! ## Parentheses, unary operators, selection -/

theorem core_paren {a : Ann} {l r : Token} {e : Expr} (hc : CoreE o e) : CoreE o (.paren a l e r) := by
  intro cx m i x s ts s' ts' hs ht hb hp h
  have ha := hs.1
  subst ha
  have hfmt : ∀ l e r, (Expr.paren {} l e r).Simple o → Same (fmt o cx (.paren {} l e r))
      (tokDoc l ⊹ fmt o (bodyCx cx) e ⊹ tokDoc r) := by
    intro l e r hs
    rw [fmt]
    have hd := plain_direct (Expr.Simple.ok e hs.2.2.1).2.2.1
    simp only [hd, Bool.false_eq_true, if_false]
    exact same_wrap hs cx
  obtain ⟨x1, x2, s1, ts1, rfl, h1, h2⟩ := (h.same (hfmt l e r hs)).cat
  obtain ⟨x3, x4, s2, ts2, rfl, h3, h4⟩ := h2.cat
  obtain ⟨l', rfl, hlo, hll, rfl, hA⟩ := h1.tokDoc
  obtain ⟨rfl, e', hE, hp2⟩ := hc.use hs.2.2.1 rfl (by simp [bodyCx]) hp.cons.2 h3
  obtain ⟨r', rfl, hro, hrl, rfl, hA4⟩ := h4.tokDoc
  have hs' : (Expr.paren {} l' e' r').Simple o := ⟨rfl, hp.cons.1, hE.simple, hp2.cons.1⟩
  refine ⟨rfl, .paren {} l' e' r', mkRe (by intros; simp) (by intros; simp) (fun _ => rfl) ?_ ?_ hs' ?_ ?_ ?_⟩
  · rw [hE.toks]; simp [Expr.tokens]
  · simpa [Expr.tokens, linesBefore] using hll
  · rfl
  · obtain ⟨e'', h5, h6⟩ := hE.rew
    refine ⟨.paren {} l e'' r, ?_, ?_⟩
    · rw [Rew]; exact unless_simple hs ⟨e'', h5, rfl⟩
    · simp only [Expr.bare, bare_eq hlo, bare_eq hro, h6]
  · exact (hA.cat (hE.again.cat hA4)).same (hfmt l e r hs) (hfmt l' e' r' hs')

theorem core_unary {a : Ann} {p : Token} {e : Expr} (hc : CoreE o e) : CoreE o (.unary a p e) := by
  intro cx m i x s ts s' ts' hs ht hb hp h
  have ha := hs.1
  subst ha
  have hfmt : ∀ p e, (Expr.unary {} p e).Simple o → Same (fmt o cx (.unary {} p e))
      (tokDoc p ⊹ maybeSpace (p.kind == .tilde && !e.isTerminal) ⊹
        fmt o (if p.kind = .wat then bodyCx cx else plainCx cx) e) := by
    intro p e hs
    rw [fmt]
    have h1 : e.ann.any = false := by rw [hs.2.2.ann]; rfl
    simp only [h1, Bool.false_eq_true, if_false]
    exact same_wrap hs cx
  obtain ⟨x1, x2, s1, ts1, rfl, h1, h2⟩ := (h.same (hfmt p e hs)).cat
  obtain ⟨x3, x4, s2, ts2, rfl, h3, h4⟩ := h2.cat
  obtain ⟨p', rfl, hpo, hpl, rfl, hA⟩ := h1.tokDoc
  obtain ⟨rfl, rfl⟩ := h3.maybeSpace
  obtain ⟨rfl, e', hE, hp2⟩ := hc.use hs.2.2 (by split <;> rfl) (by split <;> simp [bodyCx, plainCx]) hp.cons.2 h4
  have hk := kind_of_outTok hpo
  have hs' : (Expr.unary {} p' e').Simple o := ⟨rfl, hp.cons.1, hE.simple⟩
  refine ⟨rfl, .unary {} p' e', mkRe (by intros; simp) (by intros; simp) (fun _ => rfl) ?_ ?_ hs' ?_ ?_ ?_⟩
  · rw [hE.toks]; simp [Expr.tokens]
  · simpa [Expr.tokens, linesBefore] using hpl
  · rfl
  · obtain ⟨e'', h5, h6⟩ := hE.rew
    refine ⟨.unary {} p e'', ?_, ?_⟩
    · rw [Rew]
      refine unless_simple hs ⟨e'', ?_, rfl⟩
      by_cases hw : p.kind = .wat
      · rw [if_pos hw] at h5 ⊢
        exact h5
      · rw [if_neg hw] at h5 ⊢
        exact h5
    · simp only [Expr.bare, bare_eq hpo, h6]
  · have ht' := (head_eq hE.head).2.2.1
    refine Again.same ?_ (hfmt p e hs) (hfmt p' e' hs')
    rw [hk, ht']
    exact hA.cat ((Again.refl h3).cat hE.again)

theorem callee_sel {a : Ann} {k : SelKind} {x y : Expr} {p : Token} :
    calleeName (.sel a k x p y) = if k = .namespace ∧ y.isSym = true then calleeName y else none := by
  cases k <;> cases y <;> (try rfl)
  rename_i k t
  cases k <;> rfl

theorem core_sel {a : Ann} {k : SelKind} {y z : Expr} {p : Token} (hcy : CoreE o y) (hcz : CoreE o z) :
    CoreE o (.sel a k y p z) := by
  intro cx m i x s ts s' ts' hs ht hb hp h
  have ha := hs.1
  subst ha
  have hfmt : ∀ y p z, (Expr.sel {} k y p z).Simple o → Same (fmt o cx (.sel {} k y p z))
      (.group false (fmt o (plainCx cx) y ⊹ tokDoc p ⊹ fmt o (plainCx cx) z)) := by
    intro y p z hs
    rw [fmt]
    exact same_wrap hs cx
  obtain ⟨m', hm, hmb, h0⟩ := (h.same (hfmt y p z hs)).group
  obtain ⟨x1, x2, s1, ts1, rfl, h1, h2⟩ := h0.cat
  obtain ⟨x3, x4, s2, ts2, rfl, h3, h4⟩ := h2.cat
  obtain ⟨rfl, y', hE, hp2⟩ := hcy.use hs.2.1 rfl (by simp [plainCx]) hp h1
  obtain ⟨p', rfl, hpo, hpl, rfl, hA⟩ := h3.tokDoc
  obtain ⟨rfl, z', hE2, hp3⟩ := hcz.use hs.2.2.2.1 rfl (by simp [plainCx]) hp2.cons.2 h4
  have hz := head_eq hE2.head
  have hs' : (Expr.sel {} k y' p' z').Simple o := ⟨rfl, hE.simple, hp2.cons.1, hE2.simple,
    fun hk => by rw [hz.2.2.1]; exact hs.2.2.2.2 hk⟩
  refine ⟨rfl, .sel {} k y' p' z', mkRe (by intros; simp) (by intros; simp) (fun _ => rfl) ?_ ?_ hs' ?_ ?_ ?_⟩
  · rw [hE.toks, hE2.toks]; simp [Expr.tokens]
  · have := hE.lines
    rw [← this]
    obtain ⟨t, us, hh⟩ := List.exists_cons_of_ne_nil (tokens_ne_nil y')
    simp [Expr.tokens, hh, linesBefore]
  · unfold Expr.head
    rw [callee_sel, callee_sel, hz.2.2.2.2.2.2.1, hz.2.2.2.2.2.2.2.2.2]
    rfl
  · obtain ⟨y'', h5, h6⟩ := hE.rew
    obtain ⟨z'', h7, h8⟩ := hE2.rew
    refine ⟨.sel {} k y'' p z'', ?_, ?_⟩
    · rw [Rew]
      exact unless_simple hs ⟨y'', z'', h5, h7, rfl⟩
    · simp only [Expr.bare, bare_eq hpo, h6, h8]
  · exact ((hE.again.cat (hA.cat hE2.again)).group hm (fun _ => rfl) (fun h => h)).same
      (hfmt y p z hs) (hfmt y' p' z' hs')


/-! ## Binary operators -/

theorem lines_binary {a : Ann} {y z : Expr} {p : Token} :
    linesBefore (Expr.binary a y p z).tokens = linesBefore y.tokens := by
  obtain ⟨t, us, hh⟩ := List.exists_cons_of_ne_nil (tokens_ne_nil y)
  simp [Expr.tokens, hh, linesBefore]

theorem head_binary {y z y' z' : Expr} {p p' : Token} (h : isChainOp p'.kind = isChainOp p.kind) :
    (Expr.binary {} y' p' z').head = (Expr.binary {} y p z).head := by
  unfold Expr.head
  simp only [Expr.isChain, h]
  rfl

theorem assign_cases (o : Opts) (cx : Cx) (op : Token) :
    (op.kind = .equal ∧ o.style = .arrow ∧ assignTok o cx op = ⟨.assign, [60, 45]⟩) ∨
    (op.kind = .assign ∧ o.style = .equal ∧ cx.eq = true ∧ assignTok o cx op = ⟨.equal, [61]⟩) ∨
    (assignTok o cx op = outTok op ∧ ∀ u : Token, u.kind = op.kind → assignTok o cx u = outTok u) := by
  unfold assignTok
  split
  · rename_i h1 h2
    exact .inl ⟨h1, h2, rfl⟩
  · rename_i h1 h2
    split
    · rename_i h3
      exact .inr (.inl ⟨h1, h2, h3, rfl⟩)
    · rename_i h3
      refine .inr (.inr ⟨rfl, fun u hu => ?_⟩)
      rw [hu, h1, h2]
  · rename_i h1 h2
    refine .inr (.inr ⟨rfl, fun u hu => ?_⟩)
    rw [hu]
    split
    · rename_i h3 h4
      exact absurd h4 (h1 h3)
    · rename_i h3 h4
      exact absurd h4 (h2 h3)
    · rfl

theorem assign_again {op u : Token} (hu : Bland u) (hop : isAssignOp op.kind = true)
    (h : outTok u = assignTok o cx op) :
    isSticky u.kind = false ∧ isAssignOp u.kind = true ∧ opCx cx u.kind = opCx cx op.kind ∧
    (∀ r, assignBreak o u.kind r = assignBreak o op.kind r) ∧ assignTok o cx u = assignTok o cx op := by
  have hk : u.kind = (assignTok o cx op).kind := by
    rw [← h]; rfl
  have hst : ∀ k, isAssignOp k = true → isSticky k = false := by
    intro k; cases k <;> simp [isAssignOp, isSticky]
  rcases assign_cases o cx op with ⟨h1, h2, h3⟩ | ⟨h1, h2, h3, h4⟩ | ⟨h1, h2⟩
  · rw [h3] at hk h
    have hk : u.kind = .assign := hk
    refine ⟨by rw [hk]; rfl, by rw [hk]; rfl, by rw [hk, h1]; rfl, fun r => by rw [hk, h1]; rfl, ?_⟩
    rw [h3, ← h]
    unfold assignTok
    rw [hk, h2]
  · rw [h4] at hk h
    have hk : u.kind = .equal := hk
    refine ⟨by rw [hk]; rfl, by rw [hk]; rfl, by rw [hk, h1]; rfl, fun r => by rw [hk, h1]; rfl, ?_⟩
    rw [h4, ← h]
    unfold assignTok
    rw [hk, h2]
  · rw [h1] at hk h
    have hk : u.kind = op.kind := hk
    refine ⟨by rw [hk]; exact hst _ hop, by rw [hk]; exact hop, by rw [hk], fun r => by rw [hk], ?_⟩
    rw [h2 u hk, h1, h]

theorem core_binary {a : Ann} {y z : Expr} {p : Token} (hper : o.persistent = true) (hcy : CoreE o y)
    (hcz : CoreE o z) : CoreE o (.binary a y p z) := by
  intro cx m i x s ts s' ts' hs ht hb hp h
  have ha := hs.1
  subst ha
  obtain ⟨-, hsy, hsp, hsz⟩ := id hs
  have hdir : hasDirective o cx.dir {} .table = false := by simp [hasDirective]
  cases hk1 : isSticky p.kind with
  | true =>
    have hfmt : ∀ y p z, (Expr.binary {} y p z).Simple o → isSticky p.kind = true →
        Same (fmt o cx (.binary {} y p z))
        (.group false (fmt o (opCx cx p.kind) y ⊹ tokDoc p ⊹ fmt o (opCx cx p.kind) z)) := by
      intro y p z hs hk
      rw [fmt, if_pos hk]
      exact same_wrap hs cx
    obtain ⟨m', hm, hmb, h0⟩ := (h.same (hfmt y p z hs hk1)).group
    obtain ⟨x1, x2, s1, ts1, rfl, h1, h2⟩ := h0.cat
    obtain ⟨x3, x4, s2, ts2, rfl, h3, h4⟩ := h2.cat
    obtain ⟨rfl, y', hE, hp2⟩ := hcy.use hsy rfl (by simp [opCx]) hp h1
    obtain ⟨p', rfl, hpo, hpl, rfl, hA⟩ := h3.tokDoc
    obtain ⟨rfl, z', hE2, hp3⟩ := hcz.use hsz rfl (by simp [opCx]) hp2.cons.2 h4
    have hk := kind_of_outTok hpo
    have hs' : (Expr.binary {} y' p' z').Simple o := ⟨rfl, hE.simple, hp2.cons.1, hE2.simple⟩
    obtain ⟨hna, hnc⟩ := sticky_not hk1
    refine ⟨rfl, .binary {} y' p' z', mkRe (by intros; simp) (by intros; simp) (fun _ => hnc) ?_ ?_ hs' ?_ ?_ ?_⟩
    · rw [hE.toks, hE2.toks]; simp [Expr.tokens]
    · rw [lines_binary]; exact hE.lines
    · exact head_binary (by rw [hk])
    · obtain ⟨y'', h5, h6⟩ := hE.rew
      obtain ⟨z'', h7, h8⟩ := hE2.rew
      refine ⟨.binary {} y'' p z'', ?_, ?_⟩
      · rw [Rew]
        refine unless_simple hs ⟨y'', z'', ?_, ?_, ?_⟩
        · rw [hnc]; exact h5
        · rw [hna]; exact h7
        · rw [newOp_eq hna]
      · simp only [Expr.bare, bare_eq hpo, h6, h8]
    · refine Again.same ?_ (hfmt y p z hs hk1) (hfmt y' p' z' hs' (by rw [hk]; exact hk1))
      rw [hk]
      exact (hE.again.cat (hA.cat hE2.again)).group hm (fun _ => rfl) (fun h => h)
  | false =>
  cases hk2 : isAssignOp p.kind with
  | true =>
    have hnc := assign_not hk2
    have hfmt : ∀ y p z, (Expr.binary {} y p z).Simple o → isSticky p.kind = false → isAssignOp p.kind = true →
        Same (fmt o cx (.binary {} y p z))
        (.group false (fmt o (opCx cx p.kind) y ⊹ .space ⊹ .tok (assignTok o cx p) ⊹
          (if assignBreak o p.kind z then .indent (.line .hard ⊹
              fmt o { opCx cx p.kind with aligned := assignBreak o p.kind z } z)
           else .space ⊹ fmt o { opCx cx p.kind with aligned := assignBreak o p.kind z } z))) := by
      intro y p z hs hk hk'
      rw [fmt, if_neg (by rw [hk]; decide), if_pos hk']
      simp only [hdir]
      exact same_wrap hs cx
    obtain ⟨m', hm, hmb, h0⟩ := (h.same (hfmt y p z hs hk1 hk2)).group
    obtain ⟨x1, x2, s1, ts1, rfl, h1, h2⟩ := h0.cat
    obtain ⟨x3, x4, s2, ts2, rfl, h3, h4⟩ := h2.cat
    obtain ⟨x5, x6, s3, ts3, rfl, h5, h6⟩ := h4.cat
    obtain ⟨rfl, y', hE, hp2⟩ := hcy.use hsy rfl (by simp [opCx]) hp h1
    obtain ⟨rfl, rfl, rfl⟩ := h3.space
    obtain ⟨p', rfl, hpo, hpl, rfl, rfl⟩ := h5.tok
    obtain ⟨g1, g2, g3, g4, g5⟩ := assign_again hp2.cons.1 hk2 hpo
    -- the right operand
    have key : s' = .tok ∧ ∃ z', ts3 = z'.tokens ++ ts' ∧ z'.Simple o ∧
        (∃ z'', Rew o (opCx cx p.kind).core z z'' ∧ z''.bare = z'.bare) ∧
        assignBreak o p.kind z' = assignBreak o p.kind z ∧
        Again m' i
          (if assignBreak o p.kind z then .indent (.line .hard ⊹
              fmt o { opCx cx p.kind with aligned := assignBreak o p.kind z } z)
           else .space ⊹ fmt o { opCx cx p.kind with aligned := assignBreak o p.kind z } z)
          (if assignBreak o p.kind z then .indent (.line .hard ⊹
              fmt o { opCx cx p.kind with aligned := assignBreak o p.kind z } z')
           else .space ⊹ fmt o { opCx cx p.kind with aligned := assignBreak o p.kind z } z') x6 := by
      cases hbr : assignBreak o p.kind z with
      | true =>
        simp only [hbr, if_true] at h6
        obtain ⟨x7, x8, s4, ts4, rfl, h7, h8⟩ := h6.indent.cat
        obtain ⟨hs7, rfl, -⟩ := h7.line
        obtain ⟨rfl, z', hE2, hp3⟩ := hcz.use hsz (cx := { opCx cx p.kind with aligned := true }) rfl
          (by simp [opCx]) hp2.cons.2 h8
        refine ⟨rfl, z', hE2.toks, hE2.simple, hE2.rew, ?_, ?_⟩
        · have hl := hE2.lines
          rw [hs7] at hl
          unfold assignBreak at hbr ⊢
          simp only [Bool.and_eq_true] at hbr ⊢
          refine ⟨hbr.1, ?_⟩
          rw [leading_lines (Expr.Simple.ok z' hE2.simple).2.2.1, hl]
          rfl
        · exact (Again.cat (.refl h7) hE2.again).indent
      | false =>
        simp only [hbr, Bool.false_eq_true, if_false] at h6
        obtain ⟨x7, x8, s4, ts4, rfl, h7, h8⟩ := h6.cat
        obtain ⟨rfl, rfl, rfl⟩ := h7.space
        obtain ⟨rfl, z', hE2, hp3⟩ := hcz.use hsz (cx := { opCx cx p.kind with aligned := false }) rfl
          (by simp [opCx]) hp2.cons.2 h8
        refine ⟨rfl, z', hE2.toks, hE2.simple, hE2.rew, ?_, ?_⟩
        · have hl := hE2.lines
          unfold assignBreak
          rw [leading_lines (Expr.Simple.ok z' hE2.simple).2.2.1, hl]
          simp [W.tok]
        · exact Again.cat (.refl h7) hE2.again
    obtain ⟨rfl, z', rfl, hz', ⟨z'', h7, h8⟩, hbr, hag⟩ := key
    have hs' : (Expr.binary {} y' p' z').Simple o := ⟨rfl, hE.simple, hp2.cons.1, hz'⟩
    refine ⟨rfl, .binary {} y' p' z', mkRe (by intros; simp) (by intros; simp) (fun _ => hnc) ?_ ?_ hs' ?_ ?_ ?_⟩
    · rw [hE.toks]; simp [Expr.tokens]
    · rw [lines_binary]; exact hE.lines
    · exact head_binary (by rw [assign_not g2, hnc])
    · obtain ⟨y'', h9, h10⟩ := hE.rew
      refine ⟨.binary {} y'' (newOp o.style cx.core.eq p) z'', ?_, ?_⟩
      · rw [Rew]
        refine unless_simple hs ⟨y'', z'', ?_, ?_, rfl⟩
        · rw [hnc]; exact h9
        · have : hasDirective o cx.core.dir {} .table = false := hdir
          rw [this, Bool.and_false]
          exact h7
      · have : bareTok (newOp o.style cx.core.eq p) = bareTok p' := by
          rw [bareTok, bareTok, hpo, outTok_newOp]
        simp only [Expr.bare, this, h10, h8]
    · refine Again.same ?_ (hfmt y p z hs hk1 hk2) (hfmt y' p' z' hs' g1 g2)
      rw [g3, g4, g5, hbr]
      exact (hE.again.cat (Again.cat (.refl h3) (Again.cat (.refl h5) hag))).group hm (fun _ => rfl) (fun h => h)
  | false =>
  cases hk3 : isChainOp p.kind with
  | false =>
    have hfmt : ∀ y p z, (Expr.binary {} y p z).Simple o → isSticky p.kind = false → isAssignOp p.kind = false →
        isChainOp p.kind = false → Same (fmt o cx (.binary {} y p z))
        (.group false (fmt o (opCx cx p.kind) y ⊹ .space ⊹ tokDoc p ⊹
          .indent (.line .softOrSpace ⊹ fmt o (opCx cx p.kind) z))) := by
      intro y p z hs hk hk' hk''
      rw [fmt, if_neg (by rw [hk]; decide), if_neg (by rw [hk']; decide), if_neg (by rw [hk'']; decide)]
      exact same_wrap hs cx
    obtain ⟨m', hm, hmb, h0⟩ := (h.same (hfmt y p z hs hk1 hk2 hk3)).group
    obtain ⟨x1, x2, s1, ts1, rfl, h1, h2⟩ := h0.cat
    obtain ⟨x3, x4, s2, ts2, rfl, h3, h4⟩ := h2.cat
    obtain ⟨x5, x6, s3, ts3, rfl, h5, h6⟩ := h4.cat
    obtain ⟨x7, x8, s4, ts4, rfl, h7, h8⟩ := h6.indent.cat
    obtain ⟨rfl, y', hE, hp2⟩ := hcy.use hsy rfl (by simp [opCx]) hp h1
    obtain ⟨rfl, rfl, rfl⟩ := h3.space
    obtain ⟨p', rfl, hpo, hpl, rfl, hA⟩ := h5.tokDoc
    obtain ⟨hs7, rfl, -⟩ := h7.line
    obtain ⟨rfl, z', hE2, hp3⟩ := hcz.use hsz rfl (by simp [opCx]) hp2.cons.2 h8
    have hk := kind_of_outTok hpo
    have hs' : (Expr.binary {} y' p' z').Simple o := ⟨rfl, hE.simple, hp2.cons.1, hE2.simple⟩
    refine ⟨rfl, .binary {} y' p' z', mkRe (by intros; simp) (by intros; simp) (fun _ => hk3) ?_ ?_ hs' ?_ ?_ ?_⟩
    · rw [hE.toks, hE2.toks]; simp [Expr.tokens]
    · rw [lines_binary]; exact hE.lines
    · exact head_binary (by rw [hk])
    · obtain ⟨y'', h9, h10⟩ := hE.rew
      obtain ⟨z'', h11, h12⟩ := hE2.rew
      refine ⟨.binary {} y'' p z'', ?_, ?_⟩
      · rw [Rew]
        refine unless_simple hs ⟨y'', z'', ?_, ?_, ?_⟩
        · rw [hk3]; exact h9
        · rw [hk2]; exact h11
        · rw [newOp_eq hk2]
      · simp only [Expr.bare, bare_eq hpo, h10, h12]
    · refine Again.same ?_ (hfmt y p z hs hk1 hk2 hk3) (hfmt y' p' z' hs' (by rw [hk]; exact hk1)
        (by rw [hk]; exact hk2) (by rw [hk]; exact hk3))
      rw [hk]
      exact (hE.again.cat (Again.cat (.refl h3) (hA.cat (Again.cat (.refl h7) hE2.again).indent))).group hm
        (fun _ => rfl) (fun h => h)
  | true =>
    have hfmt : ∀ y p z, (Expr.binary {} y p z).Simple o → isSticky p.kind = false → isAssignOp p.kind = false →
        isChainOp p.kind = true → Same (fmt o cx (.binary {} y p z))
        (if cx.chain then
          (fmt o { opCx cx p.kind with chain := true, aligned := cx.aligned } y ⊹
            (if cx.aligned then chainPiece p z (fmt o (opCx cx p.kind) z)
             else .indent (chainPiece p z (fmt o (opCx cx p.kind) z))))
         else .group (o.persistent && leadingNewline (firstRight y z).tokens)
          (fmt o { opCx cx p.kind with chain := true, aligned := cx.aligned } y ⊹
            (if cx.aligned then chainPiece p z (fmt o (opCx cx p.kind) z)
             else .indent (chainPiece p z (fmt o (opCx cx p.kind) z))))) := by
      intro y p z hs hk hk' hk''
      rw [fmt, if_neg (by rw [hk]; decide), if_neg (by rw [hk']; decide), if_pos hk'']
      exact same_wrap hs cx
    -- the chain without the group around it
    have key : ∀ m, Step m i (fmt o { opCx cx p.kind with chain := true, aligned := cx.aligned } y ⊹
            (if cx.aligned then chainPiece p z (fmt o (opCx cx p.kind) z)
             else .indent (chainPiece p z (fmt o (opCx cx p.kind) z)))) x s ts s' ts' →
        s' = .tok ∧ ∃ y' p' z', ts = (Expr.binary {} y' p' z').tokens ++ ts' ∧ linesBefore y'.tokens = s.n ∧
          (Expr.binary {} y' p' z').Simple o ∧ p'.kind = p.kind ∧
          (∃ e'', Rew o cx.core (.binary {} y p z) e'' ∧ e''.bare = (Expr.binary {} y' p' z').bare) ∧
          Broke m (firstRight y z) (firstRight y' z') ∧
          Again m i (fmt o { opCx cx p.kind with chain := true, aligned := cx.aligned } y ⊹
            (if cx.aligned then chainPiece p z (fmt o (opCx cx p.kind) z)
             else .indent (chainPiece p z (fmt o (opCx cx p.kind) z))))
            (fmt o { opCx cx p.kind with chain := true, aligned := cx.aligned } y' ⊹
            (if cx.aligned then chainPiece p' z' (fmt o (opCx cx p.kind) z')
             else .indent (chainPiece p' z' (fmt o (opCx cx p.kind) z')))) x := by
      intro m h
      obtain ⟨x1, x2, s1, ts1, rfl, h1, h2⟩ := h.cat
      obtain ⟨rfl, y', hE, hp2⟩ := hcy.use hsy rfl (by simp [opCx]) hp h1
      have piece : ∀ j, Step m j (chainPiece p z (fmt o (opCx cx p.kind) z)) x2 .tok ts1 s' ts' →
          s' = .tok ∧ ∃ p' z', ts1 = p' :: (z'.tokens ++ ts') ∧ outTok p' = outTok p ∧ z'.Simple o ∧
            (∃ z'', Rew o (opCx cx p.kind).core z z'' ∧ z''.bare = z'.bare) ∧ Broke m z z' ∧
            Again m j (chainPiece p z (fmt o (opCx cx p.kind) z))
              (chainPiece p' z' (fmt o (opCx cx p.kind) z')) x2 := by
        intro j h
        obtain ⟨x3, x4, s2, ts2, rfl, h3, h4⟩ := Step.cat h
        obtain ⟨x5, x6, s3, ts3, rfl, h5, h6⟩ := h4.cat
        obtain ⟨x7, x8, s4, ts4, rfl, h7, h8⟩ := h6.cat
        obtain ⟨rfl, rfl, rfl⟩ := h3.space
        obtain ⟨p', rfl, hpo, hpl, rfl, hA⟩ := h5.tokDoc
        obtain ⟨hs7, rfl, -⟩ := h7.line
        obtain ⟨rfl, z', hE2, hp3⟩ := hcz.use hsz rfl (by simp [opCx]) hp2.cons.2 h8
        have hl := hE2.lines
        rw [hs7] at hl
        have hlz := leading_lines (Expr.Simple.ok z hsz).2.2.1
        have hlz' := leading_lines (Expr.Simple.ok z' hE2.simple).2.2.1
        have hn : linesBefore z'.tokens = if linesBefore z.tokens > 1 then 2 else if m = .expanded then 1 else 0 := by
          rw [hl]
          split
          · rfl
          · simp only [W.line]
            split <;> rfl
        refine ⟨rfl, p', z', by rw [hE2.toks], hpo, hE2.simple, hE2.rew, ⟨?_, ?_⟩, ?_⟩
        · intro hx
          rw [hlz', hn] at hx
          rw [hlz]
          by_cases hz1 : linesBefore z.tokens > 1
          · exact .inr (by simp; omega)
          · rw [if_neg hz1] at hx
            by_cases hm : m = .expanded
            · exact .inl hm
            · rw [if_neg hm] at hx
              cases hx
        · intro hm
          rw [hlz', hn, if_pos hm]
          split <;> rfl
        · have hkind : (linesBefore z'.tokens > 1) = (linesBefore z.tokens > 1) := by
            rw [hn]
            by_cases hz1 : linesBefore z.tokens > 1
            · simp [hz1]
            · rw [if_neg hz1]
              split <;> simp [hz1]
          unfold chainPiece
          have ht' : tokDoc p' = tokDoc p := by rw [tokDoc, hpo]; rfl
          rw [ht']
          simp only [hkind]
          exact Again.cat (.refl h3) (Again.cat (.refl h5) (Again.cat (.refl h7) hE2.again))
      have piece2 : s' = .tok ∧ ∃ p' z', ts1 = p' :: (z'.tokens ++ ts') ∧ outTok p' = outTok p ∧ z'.Simple o ∧
            (∃ z'', Rew o (opCx cx p.kind).core z z'' ∧ z''.bare = z'.bare) ∧ Broke m z z' ∧
            Again m i (if cx.aligned then chainPiece p z (fmt o (opCx cx p.kind) z)
                else .indent (chainPiece p z (fmt o (opCx cx p.kind) z)))
              (if cx.aligned then chainPiece p' z' (fmt o (opCx cx p.kind) z')
                else .indent (chainPiece p' z' (fmt o (opCx cx p.kind) z'))) x2 := by
        cases hal : cx.aligned with
        | true =>
          simp only [hal, if_true] at h2 ⊢
          exact piece i h2
        | false =>
          simp only [hal, Bool.false_eq_true, if_false] at h2 ⊢
          obtain ⟨e1, p', z', e2, e3, e4, e5, e6, e7⟩ := piece (i + 1) h2.indent
          exact ⟨e1, p', z', e2, e3, e4, e5, e6, e7.indent⟩
      obtain ⟨rfl, p', z', rfl, hpo, hz', ⟨z'', h7, h8⟩, hbr, hag⟩ := piece2
      have hs' : (Expr.binary {} y' p' z').Simple o := ⟨rfl, hE.simple, hp2.cons.1, hz'⟩
      refine ⟨rfl, y', p', z', ?_, hE.lines, hs', kind_of_outTok hpo, ?_, hE.chain rfl z z' hbr, ?_⟩
      · rw [hE.toks]; simp [Expr.tokens]
      · obtain ⟨y'', h9, h10⟩ := hE.rew
        refine ⟨.binary {} y'' p z'', ?_, ?_⟩
        · rw [Rew]
          refine unless_simple hs ⟨y'', z'', ?_, ?_, ?_⟩
          · rw [hk3]; exact h9
          · rw [hk2]; exact h7
          · rw [newOp_eq hk2]
        · simp only [Expr.bare, bare_eq hpo, h10, h8]
      · exact hE.again.cat hag
    have hstep := h.same (hfmt y p z hs hk1 hk2 hk3)
    cases hcc : cx.chain with
    | true =>
      rw [hcc] at hstep
      obtain ⟨rfl, y', p', z', htk, hl, hs', hk, hrew, hbr, hag⟩ := key m hstep
      have hag2 : Again m i (fmt o cx (.binary {} y p z)) (fmt o cx (.binary {} y' p' z')) x := by
        refine Again.same ?_ (hfmt y p z hs hk1 hk2 hk3) (hfmt y' p' z' hs' (by rw [hk]; exact hk1)
          (by rw [hk]; exact hk2) (by rw [hk]; exact hk3))
        rw [hcc, hk]
        exact hag
      refine ⟨rfl, .binary {} y' p' z', htk, by rw [lines_binary]; exact hl, hs', head_binary (by rw [hk]),
        hrew, hag2.prints, hag2.calm, ?_, ?_⟩
      · intro b _
        rw [fmt_flat cx b (by intros; simp), fmt_flat cx b (by intros; simp)]
        exact hag2.refines
      · intro _ r r' _
        simp only [firstRight, hk, hk3, if_true]
        exact hbr
    | false =>
      rw [hcc] at hstep
      obtain ⟨m', hm, hmb, h0⟩ := Step.group hstep
      obtain ⟨rfl, y', p', z', htk, hl, hs', hk, hrew, hbr, hag⟩ := key m' h0
      refine ⟨rfl, .binary {} y' p' z', mkRe (by intros; simp) (by intros; simp)
        (fun h => by rw [hcc] at h; cases h) htk (by rw [lines_binary]; exact hl) hs' (head_binary (by rw [hk]))
        hrew ?_⟩
      refine Again.same ?_ (hfmt y p z hs hk1 hk2 hk3) (hfmt y' p' z' hs' (by rw [hk]; exact hk1)
          (by rw [hk]; exact hk2) (by rw [hk]; exact hk3))
      rw [hcc, hk]
      simp only [hper, Bool.true_and] at hm hmb ⊢
      refine Again.group hag ⟨hm.1, hm.2.1, ?_⟩ ?_ ?_
      · intro hne hx
        rcases hbr.1 hx with h | h
        · exact h
        · exact hm.2.2 hne h
      · intro hb'
        rw [Bool.eq_false_iff]
        intro hx
        rcases hbr.1 hx with h | h
        · rw [hm.1 hb'] at h; cases h
        · rw [hmb hb'] at h; cases h
      · intro hx
        refine hbr.2 (hm.2.2 ?_ hx)
        intro hb'
        rw [hmb hb'] at hx
        cases hx

end

end Verif.Format
