import Verif.Lemmas.StableStmts

/-!
# Lists of expressions in a formatted text; the induction
-/

namespace Verif.Format
open Verif.Syntax

variable {o : Opts}

/-- What the rules look at in a list of expressions. -/
def Exprs.heads : Exprs → List Head
  | .nil => []
  | .cons e es => e.head :: es.heads

theorem heads_length : (es : Exprs) → es.length = es.heads.length
  | .nil => rfl
  | .cons _ es => by simp only [Exprs.length, Exprs.heads, List.length_cons, heads_length es]

/-- A single pair of braces around a name. -/
def curlyHeads : List Head → Bool
  | [h] => h.cup
  | _ => false

theorem curly_heads (es : Exprs) (b : Bool) : (curlyCurly b es).isSome = (b && curlyHeads es.heads) := by
  cases es with
  | nil => simp [curlyCurly, Exprs.heads, curlyHeads]
  | cons e es =>
    cases es with
    | cons e2 es =>
      have : curlyCurly b (.cons e (.cons e2 es)) = none := by
        unfold curlyCurly
        split
        · rename_i h
          simp at h
        · rfl
      rw [this]
      simp [Exprs.heads, curlyHeads]
    | nil =>
      show _ = (b && e.isCup)
      unfold curlyCurly
      split
      · rename_i h
        simp only [Exprs.cons.injEq, and_true] at h
        subst h
        cases b <;> rfl
      · rename_i h
        have : e.isCup = false := by
          unfold Expr.isCup
          split
          · exact absurd rfl (h _ _ _ _ _)
          · rfl
        rw [this]
        simp

/-- Braces around a single name. -/
def cupHeads : List Head → Bool
  | [h] => h.sym
  | _ => false

theorem cup_heads (a : Ann) (l r : Token) (es : Exprs) : (Expr.braced a l es r).isCup = cupHeads es.heads := by
  cases es with
  | nil => rfl
  | cons e es =>
    cases es with
    | cons e2 es =>
      unfold Expr.isCup
      split
      · rename_i h
        simp at h
      · rfl
    | nil =>
      show _ = e.isSym
      cases e <;> try rfl
      rename_i k t
      cases k <;> rfl

theorem head_braced {l r l' r' : Token} {es es' : Exprs} (h : es'.heads = es.heads) :
    (Expr.braced {} l' es' r').head = (Expr.braced {} l es r).head := by
  have hg : groupable (.braced {} l' es' r') = groupable (.braced {} l es r) := by
    cases es with
    | nil =>
      cases es' with
      | nil => rfl
      | cons e es' => cases h
    | cons e es =>
      cases es' with
      | nil => cases h
      | cons e' es' =>
        have h1 := curly_heads (.cons e es) true
        have h2 := curly_heads (.cons e' es') true
        rw [h, ← h1] at h2
        simp only [groupable, groupableBraces]
        rw [← Option.not_isSome, ← Option.not_isSome, h2]
  unfold Expr.head
  rw [cup_heads, cup_heads, h, hg]
  rfl

structure ReEs (o : Opts) (cx : Cx) (top first : Bool) (m : PMode) (i : Nat) (es : Exprs) (x : List El)
    (ts ts' : List Token) (es' : Exprs) : Prop where
  toks : ts = es'.tokens ++ ts'
  simple : es'.Simple o
  heads : es'.heads = es.heads
  rew : ∃ es'', Rews o cx top es es'' ∧ es''.bare = es'.bare
  again : Again m i (fmtExprs o cx top first es) (fmtExprs o cx top first es') x

def Exprs.isNil : Exprs → Bool
  | .nil => true
  | .cons .. => false

def CoreEs (o : Opts) (es : Exprs) : Prop :=
  ∀ cx top first m i x s ts s' ts', es.Simple o → AllPlain ts → (first = false → s = .tok) →
    Step m i (fmtExprs o cx top first es) x s ts s' ts' →
    s' = (if es.isNil then s else .tok) ∧ ∃ es', ReEs o cx top first m i es x ts ts' es'

section
variable {cx : Cx} {m : PMode} {i : Nat} {x : List El} {s s' : W} {ts ts' : List Token}

theorem Step.rnl (h : Step m i .rnl x s ts s' ts') : s' = s.rnl ∧ ts' = ts := by
  have h1 : x = [.rnl] := h.prints
  have h2 := h.walks
  subst h1
  cases h2
  exact ⟨rfl, rfl⟩

/-- The lines between two statements. -/
theorem stmts_step {top : Bool} {n : Nat} (h : Step m i (stmtSep top n) x .tok ts s' ts') :
    ts' = ts ∧ stmtSep top s'.n = stmtSep top n := by
  unfold stmtSep at h ⊢
  cases top with
  | true =>
    simp only [if_true] at h ⊢
    by_cases h1 : n > 2
    · rw [if_pos h1] at h ⊢
      obtain ⟨x1, x2, s1, ts1, rfl, h2, h3⟩ := h.cat
      obtain ⟨rfl, rfl, -⟩ := h2.line
      obtain ⟨rfl, rfl⟩ := h3.rnl
      exact ⟨rfl, rfl⟩
    · rw [if_neg h1] at h ⊢
      by_cases h2 : n = 2
      · rw [if_pos h2] at h ⊢
        obtain ⟨rfl, rfl, -⟩ := h.line
        exact ⟨rfl, rfl⟩
      · rw [if_neg h2] at h ⊢
        obtain ⟨rfl, rfl, -⟩ := h.line
        exact ⟨rfl, rfl⟩
  | false =>
    simp only [Bool.false_eq_true, if_false] at h ⊢
    by_cases h1 : n > 1
    · rw [if_pos h1] at h ⊢
      obtain ⟨rfl, rfl, -⟩ := h.line
      exact ⟨rfl, rfl⟩
    · rw [if_neg h1] at h ⊢
      obtain ⟨rfl, rfl, -⟩ := h.line
      exact ⟨rfl, rfl⟩

theorem rews_cx {cx cx' : Cx} (h : cx'.inArg = cx.inArg) {top : Bool} {es es' : Exprs} :
    Rews o cx' top es es' ↔ Rews o cx top es es' := by
  have key : ∀ {cx cx' : Cx}, cx'.inArg = cx.inArg → (es : Exprs) → ∀ es', Rews o cx' top es es' → Rews o cx top es es' := by
    intro cx cx' h es
    induction h2 : es.length generalizing es with
    | zero =>
      intro es' hr
      cases es with
      | nil => simpa only [Rews] using hr
      | cons e es => cases h2
    | succ n ih =>
      intro es' hr
      cases es with
      | nil => cases h2
      | cons e es =>
        rw [Rews] at hr ⊢
        obtain ⟨a, as, h3, h4, h5⟩ := hr
        rw [h] at h3
        exact ⟨a, as, h3, ih es (by simpa [Exprs.length] using h2) as h4, h5⟩
  exact ⟨key h es es', key h.symm es es'⟩

theorem cores_nil : CoreEs o .nil := by
  intro cx top first m i x s ts s' ts' hs hp hf h
  obtain ⟨h1, rfl, rfl⟩ := Step.nil h
  exact ⟨rfl, .nil, rfl, trivial, rfl, ⟨.nil, by rw [Rews], rfl⟩, .refl h⟩

theorem cores_cons {e : Expr} {es : Exprs} (hc : CoreE o e) (hcs : CoreEs o es) : CoreEs o (.cons e es) := by
  intro cx top first m i x s ts s' ts' hs hp hf h
  rw [fmtExprs] at h
  obtain ⟨x1, x2, s1, ts1, rfl, h1, h2⟩ := h.cat
  obtain ⟨x3, x4, s2, ts2, rfl, h3, h4⟩ := h2.cat
  have hsep : ts1 = ts ∧ (first = false → stmtSep top s1.n = stmtSep top (linesBefore e.tokens)) := by
    cases first with
    | true =>
      obtain ⟨rfl, rfl, rfl⟩ := h1.nil
      exact ⟨rfl, fun h => by cases h⟩
    | false =>
      have := hf rfl
      subst this
      obtain ⟨k1, k2⟩ := stmts_step h1
      exact ⟨k1, fun _ => k2⟩
  obtain ⟨rfl, hsep⟩ := hsep
  obtain ⟨rfl, e', hE, hp2⟩ := hc.use hs.1 rfl (by simp) hp h3
  obtain ⟨hs2, es', hEs⟩ := hcs cx top false m i x4 .tok ts2 s' ts' hs.2 hp2 (fun _ => rfl) h4
  refine ⟨?_, .cons e' es', ?_, ⟨hE.simple, hEs.simple⟩, ?_, ?_, ?_⟩
  · rw [hs2]
    cases es <;> rfl
  · rw [hE.toks, hEs.toks]; simp [Exprs.tokens]
  · simp only [Exprs.heads, hE.head, hEs.heads]
  · obtain ⟨e'', k1, k2⟩ := hE.rew
    obtain ⟨es'', k3, k4⟩ := hEs.rew
    refine ⟨.cons e'' es'', ?_, ?_⟩
    · rw [Rews]
      exact ⟨e'', es'', k1, k3, rfl⟩
    · simp only [Exprs.bare, k2, k4]
  · rw [fmtExprs, fmtExprs]
    have hlen : es'.length = es.length := by rw [heads_length, heads_length, hEs.heads]
    rw [hlen, hE.lines]
    refine Again.cat ?_ (hE.again.cat hEs.again)
    cases first with
    | true => exact .refl h1
    | false =>
      simp only [Bool.false_eq_true, if_false] at h1 ⊢
      rw [hsep rfl]
      exact .refl h1

theorem core_braced {a : Ann} {l r : Token} {es : Exprs} (hcs : CoreEs o es) : CoreE o (.braced a l es r) := by
  intro cx m i x s ts s' ts' hs ht hb hp h
  have ha := hs.1
  subst ha
  have hfmt : ∀ l es r, (Expr.braced {} l es r).Simple o → Same (fmt o cx (.braced {} l es r))
      (bracedDoc cx {} l es (fmtExprs o cx false true es) r) := by
    intro l es r hs
    rw [fmt]
    exact same_wrap hs cx
  have key : s' = .tok ∧ ∃ l' es' r', ts = l' :: (es'.tokens ++ r' :: ts') ∧ linesBeforeToken l' = s.n ∧
      outTok l' = outTok l ∧ outTok r' = outTok r ∧ es'.Simple o ∧ es'.heads = es.heads ∧
      (∃ es'', Rews o cx.core false es es'' ∧ es''.bare = es'.bare) ∧
      Again m i (bracedDoc cx {} l es (fmtExprs o cx false true es) r)
        (bracedDoc cx {} l' es' (fmtExprs o cx false true es') r') x := by
    have h := h.same (hfmt l es r hs)
    cases es with
    | nil =>
      obtain ⟨x1, x2, s1, ts1, rfl, h1, h2⟩ := Step.cat h
      obtain ⟨x3, x4, s2, ts2, rfl, h3, h4⟩ := h2.cat
      obtain ⟨l', rfl, hlo, hll, rfl, hA⟩ := h1.tokDoc
      obtain ⟨rfl, rfl, rfl⟩ := Step.nil h3
      obtain ⟨r', rfl, hro, hrl, rfl, hA4⟩ := h4.tokDoc
      exact ⟨rfl, l', .nil, r', rfl, hll, hlo, hro, trivial, rfl, ⟨.nil, by rw [Rews], rfl⟩,
        hA.cat (Again.cat (.refl h3) hA4)⟩
    | cons e1 es1 =>
      cases hcc : curlyCurly cx.inArg (.cons e1 es1) with
      | none =>
        have hdoc : ∀ l e1 es1 d r, curlyCurly cx.inArg (.cons e1 es1) = none →
            bracedDoc cx {} l (.cons e1 es1) d r = (tokDoc l ⊹ hardBlock d ⊹ tokDoc r) := by
          intro l e1 es1 d r h
          simp only [bracedDoc, h]
        rw [hdoc _ _ _ _ _ hcc] at h
        obtain ⟨x1, x2, s1, ts1, rfl, h1, h2⟩ := Step.cat h
        obtain ⟨x3, x4, s2, ts2, rfl, h3, h4⟩ := h2.cat
        obtain ⟨x5, x6, s3, ts3, rfl, h5, h6⟩ := h3.cat
        obtain ⟨x7, x8, s4, ts4, rfl, h7, h8⟩ := h5.indent.cat
        obtain ⟨l', rfl, hlo, hll, rfl, hA⟩ := h1.tokDoc
        obtain ⟨hs7, rfl, -⟩ := h7.line
        obtain ⟨hs6, rfl, -⟩ := h6.line
        obtain ⟨-, es', hEs⟩ := hcs cx false true _ _ _ _ _ _ _ hs.2.2.1 hp.cons.2 (fun h => by cases h) h8
        obtain ⟨r', rfl, hro, hrl, rfl, hA4⟩ := h4.tokDoc
        have hcc' : curlyCurly cx.inArg es' = none := by
          have k1 := curly_heads (.cons e1 es1) cx.inArg
          have k2 := curly_heads es' cx.inArg
          rw [hEs.heads, ← k1, hcc] at k2
          cases hq : curlyCurly cx.inArg es' with
          | none => rfl
          | some _ => rw [hq] at k2; cases k2
        refine ⟨rfl, l', es', r', by rw [hEs.toks], hll, hlo, hro, hEs.simple, hEs.heads, ?_, ?_⟩
        · obtain ⟨es'', k1, k2⟩ := hEs.rew
          refine ⟨es'', ?_, k2⟩
          exact (rews_cx (cx := cx) (cx' := cx.core) rfl).2 k1
        · have hag := hEs.again
          have hhd := hEs.heads
          cases es' with
          | nil => cases hhd
          | cons e2 es2 =>
            rw [hdoc _ _ _ _ _ hcc, hdoc _ _ _ _ _ hcc']
            exact hA.cat (((Again.cat (.refl h7) hag).indent.cat (.refl h6)).cat hA4)
      | some q =>
        have hshape : cx.inArg = true ∧ ∃ ia il ea t ir, e1 = .braced ia il (.cons (.atom ea .rIdentifier t) .nil) ir ∧
            es1 = .nil := by
          unfold curlyCurly at hcc
          split at hcc
          · rename_i heq
            simp only [Exprs.cons.injEq] at heq
            split at hcc
            · rename_i hin
              exact ⟨hin, _, _, _, _, _, heq.1, heq.2⟩
            · cases hcc
          · cases hcc
        obtain ⟨hin, ia, il, ea, t, ir, rfl, rfl⟩ := hshape
        have hia : ia = {} := hs.2.2.1.1.1
        have hea : ea = {} := hs.2.2.1.1.2.2.1.1.1
        subst hia hea
        obtain ⟨-, -, ⟨⟨-, hpil, ⟨⟨-, hpt⟩, -⟩, hpir⟩, -⟩, -⟩ := id hs
        have hdoc : ∀ l il t ir r d, bracedDoc cx {} l (.cons (.braced {} il (.cons (.atom {} .rIdentifier t) .nil) ir) .nil)
            d r = .group false (.nil ⊹ tokDoc l ⊹ tokDoc il ⊹ spaceBlock (nodeDoc {} (tokDoc t) .nil) ⊹
              tokDoc ir ⊹ tokDoc r ⊹ .nil) := by
          intro l il t ir r d
          simp only [bracedDoc, curlyCurly, hin, if_true]
          rfl
        rw [hdoc] at h
        have h00 := h
        obtain ⟨m', hm, hmb, h0⟩ := h.group
        obtain ⟨x0, _, s0, ts0, rfl, h0', h0⟩ := h0.cat
        obtain ⟨x1, _, s1, ts1, rfl, h1, h0⟩ := h0.cat
        obtain ⟨x2, _, s2, ts2, rfl, h2, h0⟩ := h0.cat
        obtain ⟨x3, _, s3, ts3, rfl, h3, h0⟩ := h0.cat
        obtain ⟨x4, _, s4, ts4, rfl, h4, h0⟩ := h0.cat
        obtain ⟨x5, x6, s5, ts5, rfl, h5, h6⟩ := h0.cat
        obtain ⟨rfl, rfl, rfl⟩ := h0'.nil
        obtain ⟨l', rfl, hlo, hll, rfl, hA1⟩ := h1.tokDoc
        obtain ⟨il', rfl, hilo, hill, rfl, hA2⟩ := h2.tokDoc
        obtain ⟨y1, y2, u1, vs1, rfl, g1, g2⟩ := h3.cat
        obtain ⟨y3, y4, u2, vs2, rfl, g3, g4⟩ := g1.indent.cat
        obtain ⟨hs3, rfl, -⟩ := g3.line
        obtain ⟨hs2, rfl, -⟩ := g2.line
        obtain ⟨t', rfl, hto, htl, rfl, hA3⟩ := (g4.same same_node).tokDoc
        obtain ⟨ir', rfl, hiro, hirl, rfl, hA4⟩ := h4.tokDoc
        obtain ⟨r', rfl, hro, hrl, rfl, hA5⟩ := h5.tokDoc
        obtain ⟨rfl, rfl, rfl⟩ := h6.nil
        have hp3 := hp.cons.2.cons.2.cons
        refine ⟨rfl, l', .cons (.braced {} il' (.cons (.atom {} .rIdentifier t') .nil) ir') .nil, r', ?_, hll, hlo, hro,
          ⟨⟨rfl, hp.cons.2.cons.1, ⟨⟨rfl, hp3.1, by rw [kind_of_outTok hto]; exact hs.2.2.1.1.2.2.1.1.2.2⟩, trivial⟩, hp3.2.cons.1⟩, trivial⟩, rfl, ?_, ?_⟩
        · simp [Exprs.tokens, Expr.tokens]
        · refine ⟨.cons (.braced {} il (.cons (.atom {} .rIdentifier t) .nil) ir) .nil, ?_, ?_⟩
          · simp only [Rews]
            refine ⟨_, _, ?_, rfl, rfl⟩
            rw [Rew]
            refine unless_simple hs.2.2.1.1 ⟨_, ?_, rfl⟩
            simp only [Rews]
            exact ⟨_, _, by rw [Rew], rfl, rfl⟩
          · simp only [Exprs.bare, Expr.bare, bare_eq hilo, bare_eq hto, bare_eq hiro]
        · rw [hdoc, hdoc]
          refine Again.of_eq h00 ?_
          simp only [tokDoc, hlo, hilo, hto, hiro, hro]
  obtain ⟨rfl, l', es', r', rfl, hll, hlo, hro, hsim, hhd, hrew, hag⟩ := key
  have hs' : (Expr.braced {} l' es' r').Simple o := ⟨rfl, hp.cons.1, hsim, hp.cons.2.append.2.cons.1⟩
  refine ⟨rfl, .braced {} l' es' r', mkRe (by intros; simp) (by intros; simp) (fun _ => rfl) ?_ ?_ hs' ?_ ?_ ?_⟩
  · simp [Expr.tokens]
  · simpa [Expr.tokens, linesBefore] using hll
  · exact head_braced hhd
  · obtain ⟨es'', k1, k2⟩ := hrew
    refine ⟨.braced {} l es'' r, ?_, ?_⟩
    · rw [Rew]; exact unless_simple hs ⟨es'', k1, rfl⟩
    · simp only [Expr.bare, bare_eq hlo, bare_eq hro, k2]
  · exact hag.same (hfmt l es r hs) (hfmt l' es' r' hs')

/-! ## Arguments -/

theorem core_hole {a : Ann} : CoreA o (.hole a) := by
  intro vcx dir b0 m i x s ts s' ts' hs hv hp h
  have ha : a = {} := hs
  subst ha
  have hd : ∀ b, Same (argD o vcx dir b (.hole {})) .nil := fun b => same_arg hs dir
  have hst := h.same (hd b0)
  obtain ⟨hx, rfl, rfl⟩ := hst.nil
  refine ⟨rfl, .hole {}, rfl, rfl, hs, rfl, ⟨.hole {}, by rw [RewArg], rfl⟩, h.prints, h.calm, fun b _ => .refl _⟩

theorem core_val {a : Ann} {e : Expr} (hc : CoreE o e) : CoreA o (.val a e) := by
  intro vcx dir b0 m i x s ts s' ts' hs hv hp h
  have ha := hs.1
  subst ha
  have hd : ∀ e, (Arg.val {} e).Simple o → ∀ b, Same (argD o vcx dir b (.val {} e)) (fmt o { vcx with flatParams := b } e) :=
    fun e hs b => same_arg hs dir
  have hst := h.same (hd e hs b0)
  obtain ⟨rfl, e', hE, hp2⟩ := hc.use (cx := { vcx with flatParams := b0 }) hs.2 hv.table (by simp [hv.braces]) hp hst
  have hs' : (Arg.val {} e').Simple o := ⟨rfl, hE.simple⟩
  have hag := hE.again.same (hd e hs b0) (hd e' hs' b0)
  refine ⟨rfl, .val {} e', hE.toks, hE.lines, hs', ?_, ?_, hag.prints, hag.calm, ?_⟩
  · simp only [Arg.sig, hE.head]
  · obtain ⟨e'', k1, k2⟩ := hE.rew
    exact ⟨.val {} e'', by rw [RewArg]; exact .inr ⟨e'', k1, rfl⟩, by simp only [Arg.bare, k2]⟩
  · intro b hb
    exact Refines.same (hE.refines b hb) (hd e' hs' b) (hd e hs b)

theorem core_name {a na : Ann} {n : Expr} {q : Token} (hcn : CoreE o n) : CoreA o (.name a na n q) := by
  intro vcx dir b0 m i x s ts s' ts' hs hv hp h
  have ha := hs.1
  subst ha
  have hna := hs.2.1
  subst hna
  have hd : ∀ n q, (Arg.name {} {} n q).Simple o → ∀ b, Same (argD o vcx dir b (.name {} {} n q))
      (nodeDoc {} (fmt o (plainCx vcx) n ⊹ .space ⊹ tokDoc q) .nil ⊹ .space) :=
    fun n q hs b => same_arg hs dir
  obtain ⟨x1, x2, s1, ts1, rfl, h1, h2⟩ := (h.same (hd n q hs b0)).cat
  obtain ⟨x3, _, s3, ts3, rfl, h3, h0⟩ := (h1.same same_node).cat
  obtain ⟨x4, x5, s4, ts4, rfl, h4, h5⟩ := h0.cat
  obtain ⟨rfl, n', hE, hp2⟩ := hcn.use hs.2.2.1 rfl (by simp [plainCx]) hp h3
  obtain ⟨rfl, rfl, rfl⟩ := h4.space
  obtain ⟨q', rfl, hqo, hql, rfl, hA⟩ := h5.tokDoc
  obtain ⟨rfl, rfl, rfl⟩ := h2.space
  have hs' : (Arg.name {} {} n' q').Simple o := ⟨rfl, rfl, hE.simple, hp2.cons.1⟩
  have hag' := ((hE.again.cat (Again.cat (.refl h4) hA)).same same_node same_node).cat (.refl h2)
  have hag := hag'.same (hd n q hs b0) (hd n' q' hs' b0)
  refine ⟨rfl, .name {} {} n' q', ?_, ?_, hs', rfl, ?_, hag.prints, hag.calm, ?_⟩
  · rw [hE.toks]; simp [Arg.tokens]
  · rw [show s.n = linesBefore n'.tokens from hE.lines.symm, if_neg (by simp [Arg.isHole])]
    obtain ⟨t, us, hh⟩ := List.exists_cons_of_ne_nil (tokens_ne_nil n')
    simp [Arg.tokens, hh, linesBefore]
  · obtain ⟨n'', k1, k2⟩ := hE.rew
    exact ⟨.name {} {} n'' q, by rw [RewArg]; exact .inr ⟨n'', k1, rfl⟩, by simp only [Arg.bare, k2, bare_eq hqo]⟩
  · intro b hb
    exact Refines.same hag'.refines (hd n' q' hs' b) (hd n q hs b)

theorem core_named {a na : Ann} {n e : Expr} {q : Token} (hcn : CoreE o n) (hce : CoreE o e) :
    CoreA o (.named a na n q e) := by
  intro vcx dir b0 m i x s ts s' ts' hs hv hp h
  have ha := hs.1
  subst ha
  have hna := hs.2.1
  subst hna
  have hd : ∀ n q e, (Arg.named {} {} n q e).Simple o → ∀ b, Same (argD o vcx dir b (.named {} {} n q e))
      (nodeDoc {} (fmt o (plainCx vcx) n ⊹ .space ⊹ tokDoc q) .nil ⊹ .space ⊹ fmt o { vcx with flatParams := b } e) :=
    fun n q e hs b => same_arg hs dir
  obtain ⟨x1, _, s1, ts1, rfl, h1, h0⟩ := (h.same (hd n q e hs b0)).cat
  obtain ⟨x2, x6, s2, ts2, rfl, h2, h6⟩ := h0.cat
  obtain ⟨x3, _, s3, ts3, rfl, h3, h0⟩ := (h1.same same_node).cat
  obtain ⟨x4, x5, s4, ts4, rfl, h4, h5⟩ := h0.cat
  obtain ⟨rfl, n', hE, hp2⟩ := hcn.use hs.2.2.1 rfl (by simp [plainCx]) hp h3
  obtain ⟨rfl, rfl, rfl⟩ := h4.space
  obtain ⟨q', rfl, hqo, hql, rfl, hA⟩ := h5.tokDoc
  obtain ⟨rfl, rfl, rfl⟩ := h2.space
  obtain ⟨rfl, e', hE2, hp3⟩ := hce.use (cx := { vcx with flatParams := b0 }) hs.2.2.2.2 hv.table (by simp [hv.braces]) hp2.cons.2 h6
  have hs' : (Arg.named {} {} n' q' e').Simple o := ⟨rfl, rfl, hE.simple, hp2.cons.1, hE2.simple⟩
  have hag1 := (hE.again.cat (Again.cat (.refl h4) hA)).same same_node same_node
  have hag := (hag1.cat (Again.cat (.refl h2) hE2.again)).same (hd n q e hs b0) (hd n' q' e' hs' b0)
  refine ⟨rfl, .named {} {} n' q' e', ?_, ?_, hs', ?_, ?_, hag.prints, hag.calm, ?_⟩
  · rw [hE.toks, hE2.toks]; simp [Arg.tokens]
  · rw [show s.n = linesBefore n'.tokens from hE.lines.symm, if_neg (by simp [Arg.isHole])]
    obtain ⟨t, us, hh⟩ := List.exists_cons_of_ne_nil (tokens_ne_nil n')
    simp [Arg.tokens, hh, linesBefore]
  · simp only [Arg.sig, hE2.head]
  · obtain ⟨n'', k1, k2⟩ := hE.rew
    obtain ⟨e'', k3, k4⟩ := hE2.rew
    exact ⟨.named {} {} n'' q e'', by rw [RewArg]; exact .inr ⟨n'', e'', k1, k3, rfl⟩,
      by simp only [Arg.bare, k2, k4, bare_eq hqo]⟩
  · intro b hb
    exact Refines.same (hag1.refines.cat ((Refines.refl _).cat (hE2.refines b hb))) (hd n' q' e' hs' b) (hd n q e hs b)

theorem core_pdef {a da : Ann} {n e : Expr} {q : Token} (hcn : CoreE o n) (hce : CoreE o e) :
    CoreA o (.pdef a n da q e) := by
  intro vcx dir b0 m i x s ts s' ts' hs hv hp h
  have ha := hs.1
  subst ha
  have hna := hs.2.2.1
  subst hna
  have hd : ∀ n q e, (Arg.pdef {} n {} q e).Simple o → ∀ b, Same (argD o vcx dir b (.pdef {} n {} q e))
      (fmt o (plainCx vcx) n ⊹ .space ⊹ nodeDoc {} (tokDoc q ⊹ .space ⊹ fmt o { vcx with flatParams := b } e) .nil) :=
    fun n q e hs b => same_arg hs dir
  obtain ⟨x3, _, s3, ts3, rfl, h3, h0⟩ := (h.same (hd n q e hs b0)).cat
  obtain ⟨x4, _, s4, ts4, rfl, h4, h0⟩ := h0.cat
  obtain ⟨x5, _, s5, ts5, rfl, h5, h0⟩ := (h0.same same_node).cat
  obtain ⟨x2, x6, s2, ts2, rfl, h2, h6⟩ := h0.cat
  obtain ⟨rfl, n', hE, hp2⟩ := hcn.use hs.2.1 rfl (by simp [plainCx]) hp h3
  obtain ⟨rfl, rfl, rfl⟩ := h4.space
  obtain ⟨q', rfl, hqo, hql, rfl, hA⟩ := h5.tokDoc
  obtain ⟨rfl, rfl, rfl⟩ := h2.space
  obtain ⟨rfl, e', hE2, hp3⟩ := hce.use (cx := { vcx with flatParams := b0 }) hs.2.2.2.2 hv.table (by simp [hv.braces]) hp2.cons.2 h6
  have hs' : (Arg.pdef {} n' {} q' e').Simple o := ⟨rfl, hE.simple, rfl, hp2.cons.1, hE2.simple⟩
  have hag := (hE.again.cat (Again.cat (.refl h4)
    ((hA.cat (Again.cat (.refl h2) hE2.again)).same same_node same_node))).same (hd n q e hs b0) (hd n' q' e' hs' b0)
  refine ⟨rfl, .pdef {} n' {} q' e', ?_, ?_, hs', ?_, ?_, hag.prints, hag.calm, ?_⟩
  · rw [hE.toks, hE2.toks]; simp [Arg.tokens]
  · rw [show s.n = linesBefore n'.tokens from hE.lines.symm, if_neg (by simp [Arg.isHole])]
    obtain ⟨t, us, hh⟩ := List.exists_cons_of_ne_nil (tokens_ne_nil n')
    simp [Arg.tokens, hh, linesBefore]
  · simp only [Arg.sig, hE2.head]
  · obtain ⟨n'', k1, k2⟩ := hE.rew
    obtain ⟨e'', k3, k4⟩ := hE2.rew
    exact ⟨.pdef {} n'' {} q e'', by rw [RewArg]; exact .inr ⟨n'', e'', k1, k3, rfl⟩,
      by simp only [Arg.bare, k2, k4, bare_eq hqo]⟩
  · intro b hb
    refine Refines.same (hE.again.refines.cat ((Refines.refl _).cat ?_)) (hd n' q' e' hs' b) (hd n q e hs b)
    exact Refines.same (hA.refines.cat ((Refines.refl _).cat (hE2.refines b hb))) same_node same_node

end

/-! ## The induction -/

mutual
theorem core_expr (hper : o.persistent = true) : (e : Expr) → CoreE o e
  | .atom a k t => core_atom
  | .str a p c l => core_str
  | .paren a l e r => core_paren (core_expr hper e)
  | .braced a l es r => core_braced (core_exprs hper es)
  | .unary a p e => core_unary (core_expr hper e)
  | .binary a x p y => core_binary hper (core_expr hper x) (core_expr hper y)
  | .sel a k x p y => core_sel (core_expr hper x) (core_expr hper y)
  | .call a k f aa l items r => core_call hper (core_expr hper f) (core_items hper items)
  | .func a kw pa l items r b => core_func hper (core_items hper items) (core_expr hper b)
  | .ite a kw l c r t => core_ite (core_expr hper c) (core_expr hper t)
  | .itee a kw l c r t ea el e => core_itee (core_expr hper c) (core_expr hper t) (core_expr hper e)
  | .for_ a kw l v i s r b => core_for (core_expr hper v) (core_expr hper s) (core_expr hper b)
  | .while_ a kw l c r b => core_while (core_expr hper c) (core_expr hper b)
  | .repeat_ a kw b => core_repeat (core_expr hper b)
theorem core_exprs (hper : o.persistent = true) : (es : Exprs) → CoreEs o es
  | .nil => cores_nil
  | .cons e es => cores_cons (core_expr hper e) (core_exprs hper es)
theorem core_items (hper : o.persistent = true) : (xs : Items) → ∀ p ∈ xs.entries, CoreA o p.1
  | .nil, p, hp => by cases hp
  | .last y, p, hp => by
    have h1 := core_arg hper y
    simp only [Items.entries, List.mem_singleton] at hp
    rw [hp]
    exact h1
  | .cons y s xs, p, hp => by
    have h1 := core_arg hper y
    have h2 := core_items hper xs
    simp only [Items.entries, List.mem_cons] at hp
    rcases hp with hp | hp
    · rw [hp]; exact h1
    · exact h2 p hp
theorem core_arg (hper : o.persistent = true) : (y : Arg) → CoreA o y
  | .hole a => core_hole
  | .val a e => core_val (core_expr hper e)
  | .name a na n q => core_name (core_expr hper n)
  | .named a na n q e => core_named (core_expr hper n) (core_expr hper e)
  | .pdef a n da q e => core_pdef (core_expr hper n) (core_expr hper e)
end

end Verif.Format
