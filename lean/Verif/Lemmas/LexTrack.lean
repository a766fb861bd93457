import Verif.Lemmas.LexTree

/-!
# Programs after formatting, and the brackets
-/

namespace Verif.Format
open Verif.Syntax

theorem annOk_empty : AnnOk {} := by
  intro c hc
  cases hc

/-! ## What a program becomes is spelled as such -/

theorem lexical_inBraces {x : Expr} (h : x.lexical) : (inBraces x).lexical :=
  ⟨annOk_empty, ⟨by decide, _, rfl, rfl⟩, ⟨h, trivial⟩, ⟨by decide, _, rfl, rfl⟩⟩

theorem lexical_body {br : Bool} {b b' b'' : Expr} (h : Body br b b' b'') (hb : b'.lexical) : b''.lexical := by
  unfold Body at h
  split at h
  · rw [h]; exact hb
  · rw [h]; exact lexical_inBraces hb

theorem is_operator {o : Opts} {p : Place} {op op' : Token} (h : Operator o p op op') (hop : Is binKinds op) :
    Is binKinds op' := by
  unfold Operator at h
  split at h
  · rw [h]; exact ⟨by decide, _, rfl, rfl⟩
  · split at h
    · rw [h]; exact ⟨by decide, _, rfl, rfl⟩
    · rw [h]; exact hop

mutual
theorem becomes_lexical (o : Opts) : ∀ (e e' : Expr) (p : Place), Becomes o p e e' → e.lexical → e'.lexical
  | .atom a k t, e', p, h, hl => by
    simp only [Becomes] at h; rw [h]; exact hl
  | .str a op c cl, e', p, h, hl => by
    simp only [Becomes] at h; rw [h]; exact hl
  | .paren a l e r, e', p, h, hl => by
    simp only [Becomes] at h
    rcases h with ⟨-, h⟩ | ⟨x, h1, h⟩
    · rw [h]; exact hl
    · rw [h]; exact ⟨hl.1, hl.2.1, becomes_lexical o e x _ h1 hl.2.2.1, hl.2.2.2⟩
  | .braced a l es r, e', p, h, hl => by
    simp only [Becomes] at h
    rcases h with ⟨-, h⟩ | ⟨x, h1, h⟩
    · rw [h]; exact hl
    · rw [h]; exact ⟨hl.1, hl.2.1, becomess_lexical o es x _ h1 hl.2.2.1, hl.2.2.2⟩
  | .unary a op e, e', p, h, hl => by
    simp only [Becomes] at h
    rcases h with ⟨-, h⟩ | ⟨x, h1, h⟩
    · rw [h]; exact hl
    · rw [h]; exact ⟨hl.1, hl.2.1, becomes_lexical o e x _ h1 hl.2.2⟩
  | .binary a x op y, e', p, h, hl => by
    simp only [Becomes] at h
    rcases h with ⟨-, h⟩ | ⟨x', op', y', h1, h2, h3, h⟩
    · rw [h]; exact hl
    · rw [h]
      exact ⟨hl.1, becomes_lexical o x x' _ h1 hl.2.1, is_operator h3 hl.2.2.1,
        becomes_lexical o y y' _ h2 hl.2.2.2⟩
  | .sel a k x op y, e', p, h, hl => by
    simp only [Becomes] at h
    rcases h with ⟨-, h⟩ | ⟨x', y', h1, h2, h⟩
    · rw [h]; exact hl
    · rw [h]
      exact ⟨hl.1, becomes_lexical o x x' _ h1 hl.2.1, hl.2.2.1, becomes_lexical o y y' _ h2 hl.2.2.2⟩
  | .call a k f aa l items r, e', p, h, hl => by
    simp only [Becomes] at h
    rcases h with ⟨-, h⟩ | ⟨f', is', h1, h2, h⟩
    · rw [h]; exact hl
    · rw [h]
      refine ⟨hl.1, becomes_lexical o f f' _ h1 hl.2.1, hl.2.2.1, hl.2.2.2.1, ?_, hl.2.2.2.2.2⟩
      rcases h2 with h2 | ⟨-, h2⟩
      · exact becomesItems_lexical o items is' h2 hl.2.2.2.2.1
      · rw [h2]; exact hl.2.2.2.2.1
  | .func a kw pa l items r b, e', p, h, hl => by
    simp only [Becomes] at h
    rcases h with ⟨-, h⟩ | ⟨is', b', b'', br, h1, h2, -, h3, h⟩
    · rw [h]; exact hl
    · rw [h]
      obtain ⟨l1, l2, l3, l4, l5, l6, l7⟩ := hl
      exact ⟨l1, l2, l3, l4, becomesItems_lexical o items is' h1 l5, l6,
        lexical_body h3 (becomes_lexical o b b' _ h2 l7)⟩
  | .ite a kw l c r t, e', p, h, hl => by
    simp only [Becomes] at h
    rcases h with ⟨-, h⟩ | ⟨c', t', t'', br, h1, h2, -, h3, h⟩
    · rw [h]; exact hl
    · rw [h]
      obtain ⟨l1, l2, l3, l4, l5, l6⟩ := hl
      exact ⟨l1, l2, l3, becomes_lexical o c c' _ h1 l4, l5, lexical_body h3 (becomes_lexical o t t' _ h2 l6)⟩
  | .itee a kw l c r t ea el e, e', p, h, hl => by
    simp only [Becomes] at h
    rcases h with ⟨-, h⟩ | ⟨c', t', t'', x, x'', br, h1, h2, h3, -, h4, h5, h⟩
    · rw [h]; exact hl
    · rw [h]
      obtain ⟨l1, l2, l3, l4, l5, l6, l7, l8, l9⟩ := hl
      have hx := becomes_lexical o e x _ h3 l9
      refine ⟨l1, l2, l3, becomes_lexical o c c' _ h1 l4, l5, lexical_body h4 (becomes_lexical o t t' _ h2 l6),
        l7, l8, ?_⟩
      split at h5
      · rw [h5]; exact hx
      · exact lexical_body h5 hx
  | .for_ a kw l v i s r b, e', p, h, hl => by
    simp only [Becomes] at h
    rcases h with ⟨-, h⟩ | ⟨v', s', b', b'', h1, h2, h3, h4, h⟩
    · rw [h]; exact hl
    · rw [h]
      obtain ⟨l1, l2, l3, l4, l5, l6, l7, l8⟩ := hl
      exact ⟨l1, l2, l3, becomes_lexical o v v' _ h1 l4, l5, becomes_lexical o s s' _ h2 l6, l7,
        lexical_body h4 (becomes_lexical o b b' _ h3 l8)⟩
  | .while_ a kw l c r b, e', p, h, hl => by
    simp only [Becomes] at h
    rcases h with ⟨-, h⟩ | ⟨c', t', t'', h1, h2, h3, h⟩
    · rw [h]; exact hl
    · rw [h]
      obtain ⟨l1, l2, l3, l4, l5, l6⟩ := hl
      exact ⟨l1, l2, l3, becomes_lexical o c c' _ h1 l4, l5, lexical_body h3 (becomes_lexical o b t' _ h2 l6)⟩
  | .repeat_ a kw b, e', p, h, hl => by
    simp only [Becomes] at h
    rcases h with ⟨-, h⟩ | ⟨b', b'', h1, h2, h⟩
    · rw [h]; exact hl
    · rw [h]; exact ⟨hl.1, hl.2.1, lexical_body h2 (becomes_lexical o b b' _ h1 hl.2.2)⟩
theorem becomess_lexical (o : Opts) : ∀ (es es' : Exprs) (top : Bool), Becomess o top es es' → es.lexical →
    es'.lexical
  | .nil, es', top, h, hl => by
    simp only [Becomess] at h; rw [h]; trivial
  | .cons e es, es', top, h, hl => by
    simp only [Becomess] at h
    obtain ⟨x, xs, h1, h2, h⟩ := h
    rw [h]
    exact ⟨becomes_lexical o e x _ h1 hl.1, becomess_lexical o es xs _ h2 hl.2⟩
theorem becomesItems_lexical (o : Opts) : ∀ (xs xs' : Items), BecomesItems o xs xs' → xs.lexical → xs'.lexical
  | .nil, xs', h, hl => by
    simp only [BecomesItems] at h; rw [h]; trivial
  | .last x, xs', h, hl => by
    simp only [BecomesItems] at h
    obtain ⟨x', h1, h⟩ := h
    rw [h]
    exact becomesArg_lexical o x x' h1 hl
  | .cons x s xs, xs', h, hl => by
    simp only [BecomesItems] at h
    obtain ⟨x', ys, h1, h2, h⟩ := h
    rw [h]
    exact ⟨becomesArg_lexical o x x' h1 hl.1, hl.2.1, becomesItems_lexical o xs ys h2 hl.2.2⟩
theorem becomesArg_lexical (o : Opts) : ∀ (x x' : Arg), BecomesArg o x x' → x.lexical → x'.lexical
  | .hole a, x', h, hl => by
    simp only [BecomesArg] at h; rw [h]; exact hl
  | .val a e, x', h, hl => by
    simp only [BecomesArg] at h
    rcases h with ⟨-, h⟩ | ⟨e', h1, h⟩
    · rw [h]; exact hl
    · rw [h]; exact ⟨hl.1, becomes_lexical o e e' _ h1 hl.2⟩
  | .name a na n q, x', h, hl => by
    simp only [BecomesArg] at h
    rcases h with ⟨-, h⟩ | ⟨e', h1, h⟩
    · rw [h]; exact hl
    · rw [h]; exact ⟨hl.1, hl.2.1, becomes_lexical o n e' _ h1 hl.2.2.1, hl.2.2.2⟩
  | .named a na n q e, x', h, hl => by
    simp only [BecomesArg] at h
    rcases h with ⟨-, h⟩ | ⟨n', e', h1, h2, h⟩
    · rw [h]; exact hl
    · rw [h]
      exact ⟨hl.1, hl.2.1, becomes_lexical o n n' _ h1 hl.2.2.1, hl.2.2.2.1,
        becomes_lexical o e e' _ h2 hl.2.2.2.2⟩
  | .pdef a n da q e, x', h, hl => by
    simp only [BecomesArg] at h
    rcases h with ⟨-, h⟩ | ⟨n', e', h1, h2, h⟩
    · rw [h]; exact hl
    · rw [h]
      exact ⟨hl.1, becomes_lexical o n n' _ h1 hl.2.1, hl.2.2.1, hl.2.2.2.1,
        becomes_lexical o e e' _ h2 hl.2.2.2.2⟩
end

/-! ## The closing `]]` -/

theorem step_two {s s' : Scan} {b : Byte} (h : s.step b = some s') (hs : s ≠ .bracket) :
    s' ≠ .done .rBrack2 := by
  have hsf : ∀ s', suffix b = some s' → s' ≠ .done .rBrack2 := by
    intro s' hk'
    unfold suffix at hk'
    repeat' split at hk'
    all_goals first | (cases hk'; simp; done) | cases hk'
  cases s <;> simp only [Scan.step] at h <;> repeat' split at h
  all_goals first
    | (cases h; done)
    | exact absurd rfl hs
    | exact hsf _ h
    | (have h := Option.some.inj h; subst h; simp; done)
    | (have h := Option.some.inj h; subst h; split <;> first | (simp; done) | (split <;> simp))

theorem run_two : ∀ (bs : List Byte) (s s' : Scan), s.run bs = some s' → s ≠ .bracket → s ≠ .done .rBrack2 →
    s' ≠ .done .rBrack2
  | [], s, s', h, _, h2 => by cases h; exact h2
  | b :: bs, s, s', h, h1, h2 => by
    rw [Scan.run] at h
    cases hb : s.step b with
    | none => rw [hb] at h; cases h
    | some s1 =>
      rw [hb, Option.bind_some] at h
      exact run_two bs s1 s' h (step_shape hb).1 (step_two hb h1)

theorem Word.not_two {t : Tok} (h : Word t) : t.kind ≠ .rBrack2 := by
  intro hk
  obtain ⟨s, h1, h2⟩ := h
  rw [hk] at h2
  have hs : s ≠ .done .rBrack2 := by
    cases ht : t.text with
    | nil => rw [ht] at h1; cases h1
    | cons b bs =>
      rw [ht, finish] at h1
      cases hb : start false b with
      | none => rw [hb] at h1; cases h1
      | some s0 =>
        rw [hb, Option.bind_some] at h1
        refine run_two bs s0 s h1 (start_shape hb).1 ?_
        unfold start at hb
        repeat' split at hb
        all_goals first
          | (cases hb; done)
          | (have hb := Option.some.inj hb; subst hb; simp; done)
          | (have hb := Option.some.inj hb; subst hb; split <;> simp)
  have hw : ∀ w, wordKind w ≠ .rBrack2 := by
    intro w
    unfold wordKind
    split
    · rename_i p hp
      have hm := List.mem_of_find?_eq_some hp
      have : ∀ p ∈ reserved, p.2 ≠ .rBrack2 := by decide
      exact this p hm
    · split
      · split <;> decide
      · decide
  cases s <;> simp only [Scan.kind, Option.some.injEq] at h2 <;> first
    | exact hw _ h2
    | (cases h2; done)
    | (subst h2; exact hs rfl)
    | (rename_i x
       cases hf : symbols.find? (fun p => p.1 == x) with
       | none => rw [hf] at h2; cases h2
       | some p =>
         rw [hf] at h2
         simp only [Option.map_some, Option.some.injEq] at h2
         have : ∀ p ∈ symbols, p.2 ≠ .rBrack2 := by decide
         exact this p (List.mem_of_find?_eq_some hf) h2)

/-! ## Brackets -/

theorem tracks_append : ∀ (a b : List Tok) (st : List Tok), Tracks st a →
    Tracks (a.foldl openAfter st) b → Tracks st (a ++ b)
  | [], b, st, _, h => h
  | t :: a, b, st, h, hb => by
    refine ⟨h.1, h.2.1, ?_, tracks_append a b _ h.2.2.2 hb⟩
    intro hk
    obtain ⟨u, us, hu, huk⟩ := h.2.2.1 hk
    exact ⟨u, us ++ b, by rw [hu]; rfl, huk⟩

/-- The tokens can be read, and all brackets and strings in them are closed. -/
def Sound (ts : List Token) : Prop :=
  ∀ st, openString st = none → Tracks st (ts.map outTok) ∧ (ts.map outTok).foldl openAfter st = st

theorem Sound.nil : Sound [] := fun _ h => ⟨h, rfl⟩

theorem Sound.append {a b : List Token} (ha : Sound a) (hb : Sound b) : Sound (a ++ b) := by
  intro st hst
  obtain ⟨h1, h2⟩ := ha st hst
  obtain ⟨h3, h4⟩ := hb st hst
  rw [List.map_append]
  refine ⟨tracks_append _ _ st h1 (by rw [h2]; exact h3), ?_⟩
  rw [List.foldl_append, h2, h4]

/-- Tokens that neither open nor close anything. -/
def flat (k : Kind) : Bool := !opens k && !closes k && k != .stringContent

theorem Sound.one {t : Token} {ks : List Kind} (h : Is ks t) (hk : ∀ k ∈ ks, flat k = true) : Sound [t] := by
  intro st hst
  have hf := hk _ h.1
  simp only [flat, Bool.and_eq_true, Bool.not_eq_true', bne_iff_ne] at hf
  have ho : openAfter st (outTok t) = st := by
    unfold openAfter
    rw [show (outTok t).kind = t.kind from rfl, hf.1.1, hf.1.2]
    rfl
  have hb : (outTok t).kind = .rBrack → openTwo st = false := by
    intro hb
    rw [show t.kind = .rBrack from hb] at hf
    exact absurd hf.1.2 (by decide)
  refine ⟨⟨h.2.fine hst hb, hb, fun h => absurd h hf.2, ?_⟩, ho⟩
  show openString (openAfter st (outTok t)) = none
  rw [ho]; exact hst

theorem Sound.cons {t : Token} {ks : List Kind} {ts : List Token} (h : Is ks t)
    (hk : ∀ k ∈ ks, flat k = true) (hts : Sound ts) : Sound (t :: ts) :=
  (Sound.one h hk).append hts

/-- The brackets of a pair. -/
def pairs (k k' : Kind) : Bool :=
  k == .lParen && k' == .rParen || k == .lCurly && k' == .rCurly || k == .lBrack && k' == .rBrack ||
    k == .lBrack2 && k' == .rBrack2

theorem Sound.pair {l r : Token} {ts : List Token} (hl : Word (outTok l)) (hr : Lexeme (outTok r))
    (hp : pairs l.kind r.kind = true) (hts : Sound ts) : Sound (l :: (ts ++ [r])) := by
  intro st hst
  have ho : openAfter st (outTok l) = outTok l :: st := by
    unfold openAfter
    rw [show (outTok l).kind = l.kind from rfl]
    generalize l.kind = k at hp
    generalize r.kind = k' at hp
    cases k <;> first | rfl | (cases hp; done)
  have hs : openString (outTok l :: st) = none := by
    rw [openString_cons, if_neg]
    intro h
    rw [show l.kind = .stringOpen from h] at hp
    generalize r.kind = k' at hp
    cases k' <;> cases hp
  have hc : ∀ s, openAfter (outTok l :: s) (outTok r) = s := by
    intro s
    unfold openAfter
    rw [show (outTok r).kind = r.kind from rfl]
    generalize l.kind = k at hp
    generalize r.kind = k' at hp
    cases k' <;> first | rfl | (cases k <;> cases hp; done)
  have htwo : openTwo (outTok l :: st) = (l.kind == .lBrack2) := rfl
  have hb : (outTok r).kind = .rBrack → openTwo (outTok l :: st) = false := by
    intro hb
    rw [show r.kind = .rBrack from hb] at hp
    rw [htwo]
    generalize l.kind = k at hp
    cases k <;> first | rfl | (cases hp; done)
  have hf : Fine (outTok l :: st) (outTok r) := by
    rcases hr with hr | ⟨hk, ht⟩
    · exact hr.fine hs hb
    · refine Fine.bracket2 hs ?_ hk ht
      rw [show r.kind = .rBrack2 from hk] at hp
      rw [htwo]
      generalize l.kind = k at hp
      cases k <;> first | rfl | (cases hp; done)
  obtain ⟨h1, h2⟩ := hts _ hs
  have hlb : (outTok l).kind ≠ .rBrack ∧ (outTok l).kind ≠ .stringContent := by
    constructor
    all_goals
      intro h
      have h : l.kind = _ := h
      rw [h] at hp
      generalize r.kind = k' at hp
      cases k' <;> cases hp
  have hrc : (outTok r).kind ≠ .stringContent := by
    intro h
    rw [show r.kind = .stringContent from h] at hp
    generalize l.kind = k at hp
    cases k <;> cases hp
  rw [List.map_cons, List.map_append]
  refine ⟨⟨hl.fine hst (fun h => absurd h hlb.1), fun h => absurd h hlb.1, fun h => absurd h hlb.2, ?_⟩, ?_⟩
  · rw [ho]
    refine tracks_append _ _ _ h1 ?_
    rw [h2]
    refine ⟨hf, hb, fun h => absurd h hrc, ?_⟩
    show openString (openAfter (outTok l :: st) (outTok r)) = none
    rw [hc]; exact hst
  · rw [List.foldl_cons, ho, List.foldl_append, h2]
    exact hc st

theorem Sound.string {op : Token} {c : Option Token} {cl : Token} (h : Quoted op c cl) :
    Sound (op :: (c.toList ++ [cl])) := by
  intro st hst
  obtain ⟨⟨h1, h2⟩, h3, h4, h5⟩ := h
  have hk : (outTok op).kind = .stringOpen := List.mem_singleton.1 h1
  have ho : openAfter st (outTok op) = outTok op :: st := by
    unfold openAfter
    rw [hk]
    rfl
  have hs : openString (outTok op :: st) = some (outTok op).text := by
    rw [openString_cons, if_pos hk]
  have hfin : ∀ t, InString (outTok op).text (outTok t) → Fine (outTok op :: st) (outTok t) := by
    intro t ht
    unfold Fine
    rw [hs]
    exact ht
  have hc : openAfter (outTok op :: st) (outTok cl) = st := by
    unfold openAfter
    rw [show (outTok cl).kind = .stringClose from h4]
    rfl
  have hlast : Tracks (outTok op :: st) [outTok cl] := by
    refine ⟨hfin _ h5, ?_, ?_, ?_⟩
    · intro h; rw [show (outTok cl).kind = .stringClose from h4] at h; cases h
    · intro h; rw [show (outTok cl).kind = .stringClose from h4] at h; cases h
    · rw [hc]; exact hst
  cases c with
  | none =>
    refine ⟨⟨h2.fine hst (fun h => by rw [hk] at h; cases h), (fun h => by rw [hk] at h; cases h),
      (fun h => by rw [hk] at h; cases h), ?_⟩, ?_⟩
    · rw [ho]; exact hlast
    · show openAfter (openAfter st (outTok op)) (outTok cl) = st
      rw [ho, hc]
  | some c =>
    obtain ⟨hck, hci⟩ := h3 c rfl
    have hcc : openAfter (outTok op :: st) (outTok c) = outTok op :: st := by
      unfold openAfter
      rw [show (outTok c).kind = .stringContent from hck]
      rfl
    refine ⟨⟨h2.fine hst (fun h => by rw [hk] at h; cases h), (fun h => by rw [hk] at h; cases h),
      (fun h => by rw [hk] at h; cases h), ?_⟩, ?_⟩
    · rw [ho]
      refine ⟨hfin _ hci, (fun h => by rw [show (outTok c).kind = .stringContent from hck] at h; cases h),
        (fun _ => ⟨outTok cl, [], rfl, h4⟩), ?_⟩
      rw [hcc]; exact hlast
    · show openAfter (openAfter (openAfter st (outTok op)) (outTok c)) (outTok cl) = st
      rw [ho, hcc, hc]

theorem sound_parens {l r : Token} {ts : List Token} (hl : Is [.lParen] l) (hr : Is [.rParen] r)
    (hts : Sound ts) : Sound (l :: (ts ++ [r])) := by
  refine Sound.pair hl.2 (.inl hr.2) ?_ hts
  rw [List.mem_singleton.1 hl.1, List.mem_singleton.1 hr.1]
  rfl

mutual
theorem sound : ∀ (e : Expr), e.lexical → Sound e.tokens
  | .atom a k t, h => Sound.one h.2 (by decide)
  | .str a op c cl, h => Sound.string h.2
  | .paren a l e r, h => sound_parens h.2.1 h.2.2.2 (sound e h.2.2.1)
  | .braced a l es r, h => by
    refine Sound.pair h.2.1.2 (.inl h.2.2.2.2) ?_ (sounds es h.2.2.1)
    rw [List.mem_singleton.1 h.2.1.1, List.mem_singleton.1 h.2.2.2.1]
    rfl
  | .unary a op e, h => Sound.cons h.2.1 (by decide) (sound e h.2.2)
  | .binary a x op y, h => (sound x h.2.1).append (Sound.cons h.2.2.1 (by decide) (sound y h.2.2.2))
  | .sel a k x op y, h => (sound x h.2.1).append (Sound.cons h.2.2.1 (by decide) (sound y h.2.2.2))
  | .call a k f aa l items r, h => by
    obtain ⟨-, h1, -, h2, h3, h4, h5⟩ := h
    refine (sound f h1).append (Sound.pair h2.2 h5 ?_ (soundItems items h3))
    rw [List.mem_singleton.1 h2.1, h4]
    cases k <;> rfl
  | .func a kw pa l items r b, h => by
    obtain ⟨-, h1, -, h2, h3, h4, h5⟩ := h
    have := Sound.cons h1 (by decide) ((sound_parens h2 h4 (soundItems items h3)).append (sound b h5))
    simpa [Expr.tokens] using this
  | .ite a kw l c r t, h => by
    obtain ⟨-, h1, h2, h3, h4, h5⟩ := h
    have := Sound.cons h1 (by decide) ((sound_parens h2 h4 (sound c h3)).append (sound t h5))
    simpa [Expr.tokens] using this
  | .itee a kw l c r t ea el e, h => by
    obtain ⟨-, h1, h2, h3, h4, h5, -, h6, h7⟩ := h
    have := Sound.cons h1 (by decide) ((sound_parens h2 h4 (sound c h3)).append ((sound t h5).append
      (Sound.cons h6 (by decide) (sound e h7))))
    simpa [Expr.tokens] using this
  | .for_ a kw l v i s r b, h => by
    obtain ⟨-, h1, h2, h3, h4, h5, h6, h7⟩ := h
    have := Sound.cons h1 (by decide) ((sound_parens h2 h6 ((sound v h3).append
      (Sound.cons h4 (by decide) (sound s h5)))).append (sound b h7))
    simpa [Expr.tokens] using this
  | .while_ a kw l c r t, h => by
    obtain ⟨-, h1, h2, h3, h4, h5⟩ := h
    have := Sound.cons h1 (by decide) ((sound_parens h2 h4 (sound c h3)).append (sound t h5))
    simpa [Expr.tokens] using this
  | .repeat_ a kw b, h => Sound.cons h.2.1 (by decide) (sound b h.2.2)
theorem sounds : ∀ (es : Exprs), es.lexical → Sound es.tokens
  | .nil, _ => Sound.nil
  | .cons e es, h => (sound e h.1).append (sounds es h.2)
theorem soundItems : ∀ (xs : Items), xs.lexical → Sound xs.tokens
  | .nil, _ => Sound.nil
  | .last x, h => soundArg x h
  | .cons x s xs, h => (soundArg x h.1).append (Sound.cons h.2.1 (by decide) (soundItems xs h.2.2))
theorem soundArg : ∀ (x : Arg), x.lexical → Sound x.tokens
  | .hole a, _ => Sound.nil
  | .val a e, h => sound e h.2
  | .name a na n q, h => (sound n h.2.2.1).append (Sound.one h.2.2.2 (by decide))
  | .named a na n q e, h => (sound n h.2.2.1).append (Sound.cons h.2.2.2.1 (by decide) (sound e h.2.2.2.2))
  | .pdef a n da q e, h => (sound n h.2.1).append (Sound.cons h.2.2.2.1 (by decide) (sound e h.2.2.2.2))
end

/-! ## The ends of expressions -/

/-- What can follow an expression. -/
def TokEnds (t : Tok) : Prop := holds t = false ∧ ∀ b, cont b = true → StopsAt t b

theorem Is.ends {t : Token} {ks : List Kind} (h : Is ks t) (hk : ∀ k ∈ ks, k ∈ endKinds ∧ k ≠ .stringOpen ∧
    k ≠ .stringContent) : TokEnds (outTok t) := by
  obtain ⟨h1, h2, h3⟩ := hk _ h.1
  refine ⟨?_, fun b hb => h.2.ends h1 hb⟩
  have h2 : (outTok t).kind ≠ .stringOpen := h2
  have h3 : (outTok t).kind ≠ .stringContent := h3
  simp [holds, h2, h3]

theorem ends_exempt {t : Tok} (h : exempt t.kind = true) : TokEnds t := by
  refine ⟨?_, fun b _ => .inl h⟩
  generalize ht : t.kind = k at h
  simp only [holds, ht]
  cases k <;> first | rfl | (cases h; done)

/-- The tokens of an expression, the first and the last one. -/
def Edges (ts : List Token) : Prop :=
  (∃ t r, ts = t :: r ∧ FirstByte gap (outTok t)) ∧ ∃ r t, ts = r ++ [t] ∧ TokEnds (outTok t)

theorem Is.gap {t : Token} {ks : List Kind} (h : Is ks t) (hk : ∀ k ∈ ks, k ∈ gapKinds) :
    FirstByte gap (outTok t) := h.2.gap (hk _ h.1)

theorem edges_left {x : List Token} {y : List Token} (h : Edges x) (hy : ∃ r t, y = r ++ [t] ∧ TokEnds (outTok t)) :
    Edges (x ++ y) := by
  obtain ⟨⟨t, r, rfl, h1⟩, -⟩ := h
  obtain ⟨r', t', rfl, h2⟩ := hy
  exact ⟨⟨t, _, rfl, h1⟩, t :: (r ++ r'), t', by simp, h2⟩

theorem ends_append {y : List Token} (x : List Token) (hy : ∃ r t, y = r ++ [t] ∧ TokEnds (outTok t)) :
    ∃ r t, x ++ y = r ++ [t] ∧ TokEnds (outTok t) := by
  obtain ⟨r', t', rfl, h2⟩ := hy
  exact ⟨x ++ r', t', by simp, h2⟩

theorem edges_head {t : Token} {y : List Token} {ks : List Kind} (h : Is ks t) (hk : ∀ k ∈ ks, k ∈ gapKinds)
    (hy : ∃ r t, y = r ++ [t] ∧ TokEnds (outTok t)) : Edges (t :: y) := by
  refine ⟨⟨t, y, rfl, h.gap hk⟩, ?_⟩
  exact ends_append [t] hy

theorem edges : ∀ (e : Expr), e.lexical → Edges e.tokens
  | .atom a k t, h => ⟨⟨t, [], rfl, h.2.gap (by decide)⟩, [], t, rfl, h.2.ends (by decide)⟩
  | .str a op c cl, h => by
    refine edges_head h.2.1 (by decide) ⟨c.toList, cl, rfl, ends_exempt ?_⟩
    show exempt cl.kind = true
    rw [h.2.2.2.1]
    rfl
  | .paren a l e r, h => edges_head h.2.1 (by decide) ⟨e.tokens, r, rfl, h.2.2.2.ends (by decide)⟩
  | .braced a l es r, h => edges_head h.2.1 (by decide) ⟨es.tokens, r, rfl, h.2.2.2.ends (by decide)⟩
  | .unary a op e, h => edges_head h.2.1 (by decide) (edges e h.2.2).2
  | .binary a x op y, h => edges_left (edges x h.2.1) (ends_append [op] (edges y h.2.2.2).2)
  | .sel a k x op y, h => edges_left (edges x h.2.1) (ends_append [op] (edges y h.2.2.2).2)
  | .call a k f aa l items r, h => by
    refine edges_left (edges f h.2.1) ⟨l :: items.tokens, r, by simp, ?_⟩
    obtain ⟨-, -, -, -, -, h4, h5⟩ := h
    cases k with
    | call =>
      rcases h5 with h5 | ⟨h5, -⟩
      · exact Is.ends (ks := [.rParen]) ⟨by rw [h4]; decide, h5⟩ (by decide)
      · have h5 : r.kind = .rBrack2 := h5
        rw [h4] at h5; cases h5
    | subset => exact ends_exempt (by show exempt r.kind = true; rw [h4]; rfl)
    | subset2 => exact ends_exempt (by show exempt r.kind = true; rw [h4]; rfl)
  | .func a kw pa l items r b, h => by
    refine edges_head h.2.1 (by decide) ?_
    exact ends_append [l] (ends_append items.tokens (ends_append [r] (edges b h.2.2.2.2.2.2).2))
  | .ite a kw l c r t, h => by
    refine edges_head h.2.1 (by decide) ?_
    exact ends_append [l] (ends_append c.tokens (ends_append [r] (edges t h.2.2.2.2.2).2))
  | .itee a kw l c r t ea el e, h => by
    refine edges_head h.2.1 (by decide) ?_
    exact ends_append [l] (ends_append c.tokens (ends_append [r] (ends_append t.tokens (ends_append [el]
      (edges e h.2.2.2.2.2.2.2.2).2))))
  | .for_ a kw l v i s r b, h => by
    refine edges_head h.2.1 (by decide) ?_
    exact ends_append [l] (ends_append v.tokens (ends_append [i] (ends_append s.tokens (ends_append [r]
      (edges b h.2.2.2.2.2.2.2).2))))
  | .while_ a kw l c r b, h => by
    refine edges_head h.2.1 (by decide) ?_
    exact ends_append [l] (ends_append c.tokens (ends_append [r] (edges b h.2.2.2.2.2).2))
  | .repeat_ a kw b, h => edges_head h.2.1 (by decide) (edges b h.2.2).2

end Verif.Format
