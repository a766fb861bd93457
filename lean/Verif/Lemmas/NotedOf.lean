import Verif.Lemmas.NotedText

/-!
# Files whose comments lead statements
-/

namespace Verif.Format
open Verif.Syntax Verif.Whole

variable {o : Opts} {N : Nat}

/-! ## Programs without comments -/

mutual
theorem hush_comments : (e : Expr) → e.bare.comments = []
  | .atom .. => rfl
  | .str .. => rfl
  | .paren _ l e r => by simp [Expr.bare, Expr.comments, hush_comments e, Ann.all]
  | .braced _ l es r => by simp [Expr.bare, Expr.comments, hushs_comments es, Ann.all]
  | .unary _ p e => by simp [Expr.bare, Expr.comments, hush_comments e, Ann.all]
  | .binary _ x p y => by simp [Expr.bare, Expr.comments, hush_comments x, hush_comments y, Ann.all]
  | .sel _ _ x p y => by simp [Expr.bare, Expr.comments, hush_comments x, hush_comments y, Ann.all]
  | .call _ _ f _ l items r => by simp [Expr.bare, Expr.comments, hush_comments f, hushItems_comments items, Ann.all]
  | .func _ kw _ l items r b => by simp [Expr.bare, Expr.comments, hush_comments b, hushItems_comments items, Ann.all]
  | .ite _ kw l c r t => by simp [Expr.bare, Expr.comments, hush_comments c, hush_comments t, Ann.all]
  | .itee _ kw l c r t _ el e => by
    simp [Expr.bare, Expr.comments, hush_comments c, hush_comments t, hush_comments e, Ann.all]
  | .for_ _ kw l v i s r b => by
    simp [Expr.bare, Expr.comments, hush_comments v, hush_comments s, hush_comments b, Ann.all]
  | .while_ _ kw l c r b => by simp [Expr.bare, Expr.comments, hush_comments c, hush_comments b, Ann.all]
  | .repeat_ _ kw b => by simp [Expr.bare, Expr.comments, hush_comments b, Ann.all]
theorem hushs_comments : (es : Exprs) → es.bare.comments = []
  | .nil => rfl
  | .cons e es => by simp [Exprs.bare, Exprs.comments, hush_comments e, hushs_comments es]
theorem hushItems_comments : (xs : Items) → xs.bare.comments = []
  | .nil => rfl
  | .last x => by simp [Items.bare, Items.comments, hushArg_comments x]
  | .cons x s xs => by simp [Items.bare, Items.comments, hushArg_comments x, hushItems_comments xs]
theorem hushArg_comments : (x : Arg) → x.bare.comments = []
  | .hole _ => rfl
  | .val _ e => by simp [Arg.bare, Arg.comments, hush_comments e, Ann.all]
  | .name _ _ n p => by simp [Arg.bare, Arg.comments, hush_comments n, Ann.all]
  | .named _ _ n p e => by simp [Arg.bare, Arg.comments, hush_comments n, hush_comments e, Ann.all]
  | .pdef _ n _ p e => by simp [Arg.bare, Arg.comments, hush_comments n, hush_comments e, Ann.all]
end

theorem bare_calms {es : Exprs} (h : es.gram = true) : es.bare.calm = true :=
  gram_calms _ ((bares_gram es).trans h) (hushs_comments es)

/-! ## Annotations -/

theorem leads_led {a : Ann} (h : a.leads = true) (hi : ∀ c ∈ a.all, idle o c.text) : a.Led o := by
  simp only [Ann.leads, Bool.and_eq_true, List.isEmpty_iff] at h
  exact ⟨h.1, h.2, fun c hc => hi c (by simp [Ann.all, hc])⟩

theorem ann_blank {a : Ann} (h : a.bare = true) : a = {} := by
  simp only [Ann.bare, Ann.leads, Bool.and_eq_true, List.isEmpty_iff] at h
  obtain ⟨l, d, t⟩ := a
  obtain ⟨h1, h2, h3⟩ := h
  cases h1; cases h2; cases h3
  rfl

theorem bare_terminal (e : Expr) : e.bare.isTerminal = e.isTerminal := by cases e <;> rfl

theorem aside_of {e : Expr} (h1 : e.ann.bare = true) (h2 : startsQuiet e.tokens = true) : e.Aside := by
  refine ⟨ann_blank h1, ?_⟩
  cases h : e.tokens with
  | nil => rfl
  | cons t ts => rw [h] at h2; exact h2

mutual
theorem noted_ofE : (e : Expr) → e.noted = true → e.ordinary o = true → e.bare.calm = true →
    (∀ t ∈ e.tokens, Short N t) → (∀ c ∈ e.comments, idle o c.text) → e.Noted o N
  | .atom a k t, hn, ho, hk, ht, hc => by
    simp only [Expr.noted] at hn
    exact ⟨leads_led hn hc, ht _ (by simp [Expr.tokens]), fun e => by
      have h1 : (t.kind != .stringContent) = true := hk
      rw [e] at h1
      exact absurd h1 (by decide)⟩
  | .str a p c l, hn, ho, hk, ht, hc => by
    simp only [Expr.noted] at hn
    exact ⟨leads_led hn hc, ht _ (by simp [Expr.tokens]), fun t h => ht t (by simp [Expr.tokens]; simp_all),
      ht _ (by simp [Expr.tokens])⟩
  | .paren a l e r, hn, ho, hk, ht, hc => by
    simp only [Expr.noted, Expr.bare, Expr.comments, Expr.ordinary, Expr.calm, Bool.and_eq_true, Expr.tokens,
      List.mem_cons, List.mem_append, Bool.not_eq_true'] at hn ho hk ht hc
    exact ⟨leads_led hn.1.1.1 (fun c h => hc c (by simp [h])), ht _ (by simp), ann_blank hn.1.1.2, hn.1.2,
      noted_ofE e hn.2 ho.2 hk (fun t h => ht t (by simp [h])) (fun c h => hc c (by simp [h])), ht _ (by simp)⟩
  | .braced a l es r, hn, ho, hk, ht, hc => by
    simp only [Expr.noted, Expr.bare, Expr.comments, Expr.ordinary, Expr.calm, Bool.and_eq_true, Expr.tokens,
      List.mem_cons, List.mem_append, Bool.or_eq_true, List.isEmpty_iff] at hn ho hk ht hc
    refine ⟨leads_led hn.1.1 (fun c h => hc c (by simp [h])), ht _ (by simp), fun h => ?_,
      noted_ofs es hn.2 ho.2 hk (fun t h => ht t (by simp [h])) (fun c h => hc c (by simp [h])), ht _ (by simp)⟩
    rcases hn.1.2 with h1 | h1
    · cases hq : curlyCurly true es <;> simp_all
    · exact h1
  | .unary a p e, hn, ho, hk, ht, hc => by
    simp only [Expr.noted, Expr.bare, Expr.comments, Expr.ordinary, Expr.calm, Bool.and_eq_true, Expr.tokens,
      List.mem_cons, List.mem_append] at hn ho hk ht hc
    exact ⟨leads_led hn.1.1 (fun c h => hc c (by simp [h])), ht _ (by simp), ann_blank hn.1.2,
      noted_ofE e hn.2 ho.2 hk (fun t h => ht t (by simp [h])) (fun c h => hc c (by simp [h]))⟩
  | .binary a x p y, hn, ho, hk, ht, hc => by
    simp only [Expr.noted, Expr.bare, Expr.comments, Expr.ordinary, Expr.calm, Bool.and_eq_true, Expr.tokens,
      List.mem_cons, List.mem_append] at hn ho hk ht hc
    obtain ⟨⟨⟨⟨⟨n1, n2⟩, n3⟩, n4⟩, n5⟩, n6⟩ := hn
    exact ⟨leads_led n1 (fun c h => hc c (by simp [h])), ann_blank n2,
      noted_ofE x n3 ho.1.2 hk.1.2 (fun t h => ht t (by simp [h])) (fun c h => hc c (by simp [h])), ht _ (by simp),
      aside_of n4 n5,
      noted_ofE y n6 ho.2 hk.2 (fun t h => ht t (by simp [h])) (fun c h => hc c (by simp [h]))⟩
  | .sel a k x p y, hn, ho, hk, ht, hc => by
    simp only [Expr.noted, Expr.bare, Expr.comments, Expr.ordinary, Expr.calm, Bool.and_eq_true, Expr.tokens,
      List.mem_cons, List.mem_append, Bool.or_eq_true, beq_iff_eq, bare_terminal] at hn ho hk ht hc
    obtain ⟨⟨⟨⟨n1, n2⟩, n3⟩, n4⟩, n5⟩ := hn
    refine ⟨leads_led n1 (fun c h => hc c (by simp [h])), ann_blank n2,
      noted_ofE x n3 ho.1.2 hk.1.2 (fun t h => ht t (by simp [h])) (fun c h => hc c (by simp [h])), ht _ (by simp),
      ann_blank n4,
      noted_ofE y n5 ho.2 hk.2 (fun t h => ht t (by simp [h])) (fun c h => hc c (by simp [h])), fun hk2 => ?_⟩
    rcases hk.1.1.2 with h | h
    · rw [hk2] at h; cases h
    · exact h.2
  | .call a k f aa l items r, hn, ho, hk, ht, hc => by
    simp only [Expr.noted, Expr.bare, Expr.comments, Expr.ordinary, Expr.calm, Bool.and_eq_true, Expr.tokens,
      List.mem_cons, List.mem_append, Bool.not_eq_true'] at hn ho hk ht hc
    obtain ⟨⟨⟨⟨⟨n1, n2⟩, n3⟩, n4⟩, n5⟩, n6⟩ := hn
    exact ⟨leads_led n1 (fun c h => hc c (by simp [h])), ann_blank n2, ho.1.1.2, ann_blank n3,
      noted_ofE f n4 ho.1.2 hk.1.2 (fun t h => ht t (by simp [h])) (fun c h => hc c (by simp [h])), ht _ (by simp),
      noted_ofI items n5 ho.2 hk.2 (fun t h => ht t (by simp [h])) (fun c h => hc c (by simp [h])), ht _ (by simp), n6⟩
  | .func a kw pa l items r b, hn, ho, hk, ht, hc => by
    simp only [Expr.noted, Expr.bare, Expr.comments, Expr.ordinary, Expr.calm, Bool.and_eq_true, Expr.tokens,
      List.mem_cons, List.mem_append, List.isEmpty_iff] at hn ho hk ht hc
    obtain ⟨⟨⟨⟨⟨⟨n1, n2⟩, n3⟩, n4⟩, n5⟩, n6⟩, n7⟩ := hn
    exact ⟨leads_led n1 (fun c h => hc c (by simp [h])), ann_blank n2, ht _ (by simp), ht _ (by simp), n3,
      noted_ofI items n4 ho.1.2 hk.1 (fun t h => ht t (by simp [h])) (fun c h => hc c (by simp [h])), ht _ (by simp),
      aside_of n5 n6,
      noted_ofE b n7 ho.2 hk.2 (fun t h => ht t (by simp [h])) (fun c h => hc c (by simp [h]))⟩
  | .ite a kw l c r t, hn, ho, hk, ht, hc => by
    simp only [Expr.noted, Expr.bare, Expr.comments, Expr.ordinary, Expr.calm, Bool.and_eq_true, Expr.tokens,
      List.mem_cons, List.mem_append] at hn ho hk ht hc
    obtain ⟨⟨⟨⟨⟨n1, n2⟩, n3⟩, n4⟩, n5⟩, n6⟩ := hn
    exact ⟨leads_led n1 (fun c h => hc c (by simp [h])), ht _ (by simp), ht _ (by simp), ann_blank n2,
      noted_ofE c n3 ho.1.2 hk.1 (fun t h => ht t (by simp [h])) (fun c h => hc c (by simp [h])), ht _ (by simp),
      aside_of n4 n5,
      noted_ofE t n6 ho.2 hk.2 (fun t h => ht t (by simp [h])) (fun c h => hc c (by simp [h]))⟩
  | .itee a kw l c r t ea el e, hn, ho, hk, ht, hc => by
    simp only [Expr.noted, Expr.bare, Expr.comments, Expr.ordinary, Expr.calm, Bool.and_eq_true, Expr.tokens,
      List.mem_cons, List.mem_append, Bool.not_eq_true'] at hn ho hk ht hc
    obtain ⟨⟨⟨⟨⟨⟨⟨⟨⟨⟨n1, n2⟩, n3⟩, n4⟩, n5⟩, n6⟩, n7⟩, n8⟩, n9⟩, n10⟩, n11⟩ := hn
    exact ⟨leads_led n1 (fun c h => hc c (by simp [h])), ann_blank n2, ht _ (by simp), ht _ (by simp), ann_blank n3,
      noted_ofE c n4 ho.1.1.2 hk.1.1.2 (fun t h => ht t (by simp [h])) (fun c h => hc c (by simp [h])), ht _ (by simp),
      aside_of n5 n6,
      noted_ofE t n7 ho.1.2 hk.1.2 (fun t h => ht t (by simp [h])) (fun c h => hc c (by simp [h])), ht _ (by simp), n8,
      aside_of n9 n10,
      noted_ofE e n11 ho.2 hk.2 (fun t h => ht t (by simp [h])) (fun c h => hc c (by simp [h]))⟩
  | .for_ a kw l v i s r b, hn, ho, hk, ht, hc => by
    simp only [Expr.noted, Expr.bare, Expr.comments, Expr.ordinary, Expr.calm, Bool.and_eq_true, Expr.tokens,
      List.mem_cons, List.mem_append] at hn ho hk ht hc
    obtain ⟨⟨⟨⟨⟨⟨n1, n2⟩, n3⟩, n4⟩, n5⟩, n6⟩, n7⟩ := hn
    exact ⟨leads_led n1 (fun c h => hc c (by simp [h])), ht _ (by simp), ht _ (by simp), ann_blank n2,
      noted_ofE v n3 ho.1.1.2 hk.1.1 (fun t h => ht t (by simp [h])) (fun c h => hc c (by simp [h])), ht _ (by simp),
      ann_blank n4,
      noted_ofE s n5 ho.1.2 hk.1.2 (fun t h => ht t (by simp [h])) (fun c h => hc c (by simp [h])), ht _ (by simp),
      ann_blank n6,
      noted_ofE b n7 ho.2 hk.2 (fun t h => ht t (by simp [h])) (fun c h => hc c (by simp [h]))⟩
  | .while_ a kw l c r b, hn, ho, hk, ht, hc => by
    simp only [Expr.noted, Expr.bare, Expr.comments, Expr.ordinary, Expr.calm, Bool.and_eq_true, Expr.tokens,
      List.mem_cons, List.mem_append] at hn ho hk ht hc
    obtain ⟨⟨⟨⟨n1, n2⟩, n3⟩, n4⟩, n5⟩ := hn
    exact ⟨leads_led n1 (fun c h => hc c (by simp [h])), ht _ (by simp), ht _ (by simp), ann_blank n2,
      noted_ofE c n3 ho.1.2 hk.1 (fun t h => ht t (by simp [h])) (fun c h => hc c (by simp [h])), ht _ (by simp),
      ann_blank n4,
      noted_ofE b n5 ho.2 hk.2 (fun t h => ht t (by simp [h])) (fun c h => hc c (by simp [h]))⟩
  | .repeat_ a kw b, hn, ho, hk, ht, hc => by
    simp only [Expr.noted, Expr.bare, Expr.comments, Expr.ordinary, Expr.calm, Bool.and_eq_true, Expr.tokens,
      List.mem_cons, List.mem_append] at hn ho hk ht hc
    exact ⟨leads_led hn.1.1 (fun c h => hc c (by simp [h])), ht _ (by simp), ann_blank hn.1.2,
      noted_ofE b hn.2 ho.2 hk (fun t h => ht t (by simp [h])) (fun c h => hc c (by simp [h]))⟩
theorem noted_ofs : (es : Exprs) → es.noted = true → es.ordinary o = true → es.bare.calm = true →
    (∀ t ∈ es.tokens, Short N t) → (∀ c ∈ es.comments, idle o c.text) → es.Noted o N
  | .nil, _, _, _, _, _ => trivial
  | .cons e es, hn, ho, hk, ht, hc => by
    simp only [Exprs.noted, Exprs.bare, Exprs.comments, Exprs.ordinary, Exprs.calm, Bool.and_eq_true, Exprs.tokens,
      List.mem_append] at hn ho hk ht hc
    exact ⟨noted_ofE e hn.1 ho.1 hk.1 (fun t h => ht t (by simp [h])) (fun c h => hc c (by simp [h])),
      noted_ofs es hn.2 ho.2 hk.2 (fun t h => ht t (by simp [h])) (fun c h => hc c (by simp [h]))⟩
theorem noted_ofI : (xs : Items) → xs.noted = true → xs.ordinary o = true → xs.bare.calm = true →
    (∀ t ∈ xs.tokens, Short N t) → (∀ c ∈ xs.comments, idle o c.text) → xs.Noted o N
  | .nil, _, _, _, _, _ => trivial
  | .last x, hn, ho, hk, ht, hc => noted_ofA x hn ho hk ht hc
  | .cons x s xs, hn, ho, hk, ht, hc => by
    simp only [Items.noted, Items.bare, Items.comments, Items.ordinary, Items.calm, Bool.and_eq_true, Items.tokens,
      List.mem_append, List.mem_cons] at hn ho hk ht hc
    exact ⟨noted_ofA x hn.1 ho.1 hk.1 (fun t h => ht t (by simp [h])) (fun c h => hc c (by simp [h])), ht _ (by simp),
      noted_ofI xs hn.2 ho.2 hk.2 (fun t h => ht t (by simp [h])) (fun c h => hc c (by simp [h]))⟩
theorem noted_ofA : (x : Arg) → x.noted = true → x.ordinary o = true → x.bare.calm = true →
    (∀ t ∈ x.tokens, Short N t) → (∀ c ∈ x.comments, idle o c.text) → x.Noted o N
  | .hole a, hn, _, _, _, _ => ann_blank hn
  | .val a e, hn, ho, hk, ht, hc => by
    simp only [Arg.noted, Arg.bare, Arg.comments, Arg.ordinary, Arg.calm, Bool.and_eq_true, Arg.tokens,
      List.mem_append, List.mem_cons, Bool.not_eq_true'] at hn ho hk ht hc
    exact ⟨ann_blank hn.1.1.1, ann_blank hn.1.1.2, hn.1.2,
      noted_ofE e hn.2 ho.2 hk ht (fun c h => hc c (by simp [h]))⟩
  | .name a na n q, hn, ho, hk, ht, hc => by
    simp only [Arg.noted, Arg.bare, Arg.comments, Arg.ordinary, Arg.calm, Bool.and_eq_true, Arg.tokens,
      List.mem_append, List.mem_cons] at hn ho hk ht hc
    obtain ⟨⟨⟨⟨n1, n2⟩, n3⟩, n4⟩, n5⟩ := hn
    exact ⟨ann_blank n1, ann_blank n2, aside_of n3 n4,
      noted_ofE n n5 ho.2 hk (fun t h => ht t (by simp [h])) (fun c h => hc c (by simp [h])), ht _ (by simp)⟩
  | .named a na n q e, hn, ho, hk, ht, hc => by
    simp only [Arg.noted, Arg.bare, Arg.comments, Arg.ordinary, Arg.calm, Bool.and_eq_true, Arg.tokens,
      List.mem_append, List.mem_cons] at hn ho hk ht hc
    obtain ⟨⟨⟨⟨⟨⟨n1, n2⟩, n3⟩, n4⟩, n5⟩, n6⟩, n7⟩ := hn
    exact ⟨ann_blank n1, ann_blank n2, aside_of n3 n4,
      noted_ofE n n5 ho.1.2 hk.1 (fun t h => ht t (by simp [h])) (fun c h => hc c (by simp [h])), ht _ (by simp),
      ann_blank n6, noted_ofE e n7 ho.2 hk.2 (fun t h => ht t (by simp [h])) (fun c h => hc c (by simp [h]))⟩
  | .pdef a n da q e, hn, ho, hk, ht, hc => by
    simp only [Arg.noted, Arg.bare, Arg.comments, Arg.ordinary, Arg.calm, Bool.and_eq_true, Arg.tokens,
      List.mem_append, List.mem_cons] at hn ho hk ht hc
    obtain ⟨⟨⟨⟨⟨⟨n1, n2⟩, n3⟩, n4⟩, n5⟩, n6⟩, n7⟩ := hn
    exact ⟨ann_blank n1, aside_of n2 n3,
      noted_ofE n n4 ho.1.2 hk.1 (fun t h => ht t (by simp [h])) (fun c h => hc c (by simp [h])), ann_blank n5,
      ht _ (by simp), ann_blank n6,
      noted_ofE e n7 ho.2 hk.2 (fun t h => ht t (by simp [h])) (fun c h => hc c (by simp [h]))⟩
end

/-- Some number bounds the lengths of the tokens. -/
theorem short_bound : (ts : List Token) → ∃ N, 2 ≤ N ∧ ∀ t ∈ ts, Short N t
  | [] => ⟨2, Nat.le_refl _, nofun⟩
  | t :: ts => by
    obtain ⟨N, h1, h2⟩ := short_bound ts
    refine ⟨N + (outTok t).text.length, by omega, fun u hu => ?_⟩
    have key : ∀ {v : Token} {M : Nat}, (outTok v).text.length ≤ M → Short M v := fun h => by
      simp [Short, Tok.isNote]; exact h
    have back : ∀ {v : Token} {M : Nat}, Short M v → (outTok v).text.length ≤ M := fun h => by
      simpa [Short, Tok.isNote] using h
    rcases List.mem_cons.1 hu with rfl | hu
    · exact key (by omega)
    · exact key (Nat.le_trans (back (h2 u hu)) (by omega))

/-! ## Texts of tokens with and without comments -/

/-- Printed as it is. -/
def Exact (t : Token) : Prop := (outTok t).text = t.text

theorem Mild.exact {h : Token → Token} (hh : Mild h) {t : Token} (ht : Exact (h t)) : Exact t := by
  unfold Exact at *
  rw [hh.out] at ht
  obtain ⟨n, hn⟩ := hh t
  rw [ht, hn]
  rfl

theorem notes_tail {k : Nat → Exprs} {P : Token → Prop} {Q : Prop} (hk : ∀ n, (∀ u ∈ (k n).tokens, P u) → Q) :
    (n : Nat) → (cs : List Comment) → (∀ u ∈ (notes N n cs k).tokens, P u) → Q
  | n, [], h => hk n h
  | n, c :: cs, h => notes_tail hk c.gap cs (fun u hu => h u (by
    rw [notes, Exprs.tokens]
    exact List.mem_append_right _ hu))

mutual
theorem exact_voiced : (e : Expr) → ∀ {h : Token → Token}, Mild h → (∀ u ∈ (e.voiced N h).tokens, Exact u) →
    ∀ t ∈ e.tokens, Exact t
  | .atom _ _ t, h, hh, hv, u, hu => by
    cases List.mem_singleton.1 hu
    exact hh.exact (hv _ (by simp [Expr.voiced, Expr.tokens]))
  | .str _ p c l, h, hh, hv, u, hu => by
    simp only [Expr.voiced, Expr.tokens, List.mem_cons, List.mem_append, List.mem_nil_iff, or_false, Option.mem_toList] at hu hv
    rcases hu with rfl | hu | rfl
    · exact hh.exact (hv _ (by simp))
    · exact mild_hush.exact (hv (hush u) (by simp; right; left; exact ⟨u, hu, rfl⟩))
    · exact mild_hush.exact (hv _ (by simp))
  | .paren _ l e r, h, hh, hv, u, hu => by
    simp only [Expr.voiced, Expr.tokens, List.mem_cons, List.mem_append, List.mem_nil_iff, or_false] at hu hv
    rcases hu with rfl | hu | rfl
    · exact hh.exact (hv _ (by simp))
    · exact exact_voiced e mild_hush (fun u hu => hv u (by simp [hu])) u hu
    · exact mild_hush.exact (hv _ (by simp))
  | .braced _ l es r, h, hh, hv, u, hu => by
    simp only [Expr.voiced, Expr.tokens, List.mem_cons, List.mem_append, List.mem_nil_iff, or_false] at hu hv
    rcases hu with rfl | hu | rfl
    · exact hh.exact (hv _ (by simp))
    · exact exact_voiceds es (fun u hu => hv u (by simp [hu])) u hu
    · exact mild_hush.exact (hv _ (by simp))
  | .unary _ p e, h, hh, hv, u, hu => by
    simp only [Expr.voiced, Expr.tokens, List.mem_cons] at hu hv
    rcases hu with rfl | hu
    · exact hh.exact (hv _ (by simp))
    · exact exact_voiced e mild_hush (fun u hu => hv u (by simp [hu])) u hu
  | .binary _ x p y, h, hh, hv, u, hu => by
    simp only [Expr.voiced, Expr.tokens, List.mem_cons, List.mem_append] at hu hv
    rcases hu with hu | rfl | hu
    · exact exact_voiced x hh (fun u hu => hv u (by simp [hu])) u hu
    · exact mild_hush.exact (hv _ (by simp))
    · exact exact_voiced y mild_hush (fun u hu => hv u (by simp [hu])) u hu
  | .sel _ _ x p y, h, hh, hv, u, hu => by
    simp only [Expr.voiced, Expr.tokens, List.mem_cons, List.mem_append] at hu hv
    rcases hu with hu | rfl | hu
    · exact exact_voiced x hh (fun u hu => hv u (by simp [hu])) u hu
    · exact mild_hush.exact (hv _ (by simp))
    · exact exact_voiced y mild_hush (fun u hu => hv u (by simp [hu])) u hu
  | .call _ _ f _ l items r, h, hh, hv, u, hu => by
    simp only [Expr.voiced, Expr.tokens, List.mem_cons, List.mem_append, List.mem_nil_iff, or_false] at hu hv
    rcases hu with hu | rfl | hu | rfl
    · exact exact_voiced f hh (fun u hu => hv u (by simp [hu])) u hu
    · exact mild_hush.exact (hv _ (by simp))
    · exact exact_voicedItems items (fun u hu => hv u (by simp [hu])) u hu
    · exact mild_hush.exact (hv _ (by simp))
  | .func _ kw _ l items r b, h, hh, hv, u, hu => by
    simp only [Expr.voiced, Expr.tokens, List.mem_cons, List.mem_append] at hu hv
    rcases hu with rfl | rfl | hu | rfl | hu
    · exact hh.exact (hv _ (by simp))
    · exact mild_hush.exact (hv _ (by simp))
    · exact exact_voicedItems items (fun u hu => hv u (by simp [hu])) u hu
    · exact mild_hush.exact (hv _ (by simp))
    · exact exact_voiced b mild_hush (fun u hu => hv u (by simp [hu])) u hu
  | .ite _ kw l c r t, h, hh, hv, u, hu => by
    simp only [Expr.voiced, Expr.tokens, List.mem_cons, List.mem_append] at hu hv
    rcases hu with rfl | rfl | hu | rfl | hu
    · exact hh.exact (hv _ (by simp))
    · exact mild_hush.exact (hv _ (by simp))
    · exact exact_voiced c mild_hush (fun u hu => hv u (by simp [hu])) u hu
    · exact mild_hush.exact (hv _ (by simp))
    · exact exact_voiced t mild_hush (fun u hu => hv u (by simp [hu])) u hu
  | .itee _ kw l c r t _ el e, h, hh, hv, u, hu => by
    simp only [Expr.voiced, Expr.tokens, List.mem_cons, List.mem_append] at hu hv
    rcases hu with rfl | rfl | hu | rfl | hu | rfl | hu
    · exact hh.exact (hv _ (by simp))
    · exact mild_hush.exact (hv _ (by simp))
    · exact exact_voiced c mild_hush (fun u hu => hv u (by simp [hu])) u hu
    · exact mild_hush.exact (hv _ (by simp))
    · exact exact_voiced t mild_hush (fun u hu => hv u (by simp [hu])) u hu
    · exact mild_hush.exact (hv _ (by simp))
    · exact exact_voiced e mild_hush (fun u hu => hv u (by simp [hu])) u hu
  | .for_ _ kw l v i s r b, h, hh, hv, u, hu => by
    simp only [Expr.voiced, Expr.tokens, List.mem_cons, List.mem_append] at hu hv
    rcases hu with rfl | rfl | hu | rfl | hu | rfl | hu
    · exact hh.exact (hv _ (by simp))
    · exact mild_hush.exact (hv _ (by simp))
    · exact exact_voiced v mild_hush (fun u hu => hv u (by simp [hu])) u hu
    · exact mild_hush.exact (hv _ (by simp))
    · exact exact_voiced s mild_hush (fun u hu => hv u (by simp [hu])) u hu
    · exact mild_hush.exact (hv _ (by simp))
    · exact exact_voiced b mild_hush (fun u hu => hv u (by simp [hu])) u hu
  | .while_ _ kw l c r b, h, hh, hv, u, hu => by
    simp only [Expr.voiced, Expr.tokens, List.mem_cons, List.mem_append] at hu hv
    rcases hu with rfl | rfl | hu | rfl | hu
    · exact hh.exact (hv _ (by simp))
    · exact mild_hush.exact (hv _ (by simp))
    · exact exact_voiced c mild_hush (fun u hu => hv u (by simp [hu])) u hu
    · exact mild_hush.exact (hv _ (by simp))
    · exact exact_voiced b mild_hush (fun u hu => hv u (by simp [hu])) u hu
  | .repeat_ _ kw b, h, hh, hv, u, hu => by
    simp only [Expr.voiced, Expr.tokens, List.mem_cons] at hu hv
    rcases hu with rfl | hu
    · exact hh.exact (hv _ (by simp))
    · exact exact_voiced b mild_hush (fun u hu => hv u (by simp [hu])) u hu
theorem exact_voiceds : (es : Exprs) → (∀ u ∈ (es.voiced N).tokens, Exact u) → ∀ t ∈ es.tokens, Exact t
  | .nil, _, u, hu => by cases hu
  | .cons e es, hv, u, hu => by
    rw [Exprs.voiced] at hv
    refine notes_tail (k := fun n => .cons (e.voiced N (fresh n)) (es.voiced N)) (fun n hk => ?_) _ _ hv
    simp only [Exprs.tokens, List.mem_append] at hu hk
    rcases hu with hu | hu
    · exact exact_voiced e (mild_fresh n) (fun u hu => hk u (.inl hu)) u hu
    · exact exact_voiceds es (fun u hu => hk u (.inr hu)) u hu
theorem exact_voicedItems : (xs : Items) → (∀ u ∈ (xs.voiced N).tokens, Exact u) → ∀ t ∈ xs.tokens, Exact t
  | .nil, _, u, hu => by cases hu
  | .last x, hv, u, hu => exact_voicedArg x hv u hu
  | .cons x s xs, hv, u, hu => by
    simp only [Items.voiced, Items.tokens, List.mem_cons, List.mem_append] at hu hv
    rcases hu with hu | rfl | hu
    · exact exact_voicedArg x (fun u hu => hv u (by simp [hu])) u hu
    · exact mild_hush.exact (hv _ (by simp))
    · exact exact_voicedItems xs (fun u hu => hv u (by simp [hu])) u hu
theorem exact_voicedArg : (x : Arg) → (∀ u ∈ (x.voiced N).tokens, Exact u) → ∀ t ∈ x.tokens, Exact t
  | .hole _, _, u, hu => by cases hu
  | .val _ e, hv, u, hu => exact_voiced e mild_hush hv u hu
  | .name _ _ n p, hv, u, hu => by
    simp only [Arg.voiced, Arg.tokens, List.mem_cons, List.mem_append, List.mem_nil_iff, or_false] at hu hv
    rcases hu with hu | rfl
    · exact exact_voiced n mild_hush (fun u hu => hv u (by simp [hu])) u hu
    · exact mild_hush.exact (hv _ (by simp))
  | .named _ _ n p e, hv, u, hu => by
    simp only [Arg.voiced, Arg.tokens, List.mem_cons, List.mem_append] at hu hv
    rcases hu with hu | rfl | hu
    · exact exact_voiced n mild_hush (fun u hu => hv u (by simp [hu])) u hu
    · exact mild_hush.exact (hv _ (by simp))
    · exact exact_voiced e mild_hush (fun u hu => hv u (by simp [hu])) u hu
  | .pdef _ n _ p e, hv, u, hu => by
    simp only [Arg.voiced, Arg.tokens, List.mem_cons, List.mem_append] at hu hv
    rcases hu with hu | rfl | hu
    · exact exact_voiced n mild_hush (fun u hu => hv u (by simp [hu])) u hu
    · exact mild_hush.exact (hv _ (by simp))
    · exact exact_voiced e mild_hush (fun u hu => hv u (by simp [hu])) u hu
end

end Verif.Format
