import Verif.Lemmas.StableArgs

/-!
# Calls and parameter lists in a formatted text
-/

namespace Verif.Format
open Verif.Syntax

variable {o : Opts}

theorem Same.symm {a b : Doc} (h : Same a b) : Same b a :=
  ⟨fun m i x => (h.prints m i x).symm, h.breaks.symm, h.fixed.symm⟩

theorem same_assoc {a b c d : Doc} : Same (a ⊹ b ⊹ c ⊹ d) ((a ⊹ b ⊹ c) ⊹ d) := by
  refine ⟨fun m i x => ⟨?_, ?_⟩, ?_, ?_⟩
  · rintro ⟨x1, _, rfl, h1, x2, _, rfl, h2, x3, x4, rfl, h3, h4⟩
    exact ⟨x1 ++ (x2 ++ x3), x4, by simp, ⟨x1, _, rfl, h1, x2, x3, rfl, h2, h3⟩, h4⟩
  · rintro ⟨_, x4, rfl, ⟨x1, _, rfl, h1, x2, x3, rfl, h2, h3⟩, h4⟩
    exact ⟨x1, x2 ++ (x3 ++ x4), by simp, h1, x2, _, rfl, h2, x3, x4, rfl, h3, h4⟩
  · simp [Doc.willBreak, Bool.or_assoc]
  · simp [Doc.fixed, Bool.and_assoc]

theorem Same.group {d d' : Doc} (h : Same d' d) (ex : Bool) : Same (.group ex d') (.group ex d) := by
  refine ⟨fun m i x => ⟨?_, ?_⟩, ?_, rfl⟩
  · rintro ⟨m', h1, h2⟩
    exact ⟨m', h1, (h.prints _ _ _).1 h2⟩
  · rintro ⟨m', h1, h2⟩
    exact ⟨m', h1, (h.prints _ _ _).2 h2⟩
  · simp only [Doc.willBreak, h.breaks]

theorem Refines.opened {d d' : Doc} (h : Refines d' d) (hf : d.fixed = true) {ex ex' : Bool} :
    Refines (.group ex' d') (.group ex d) := by
  rintro m i x hm ⟨m', h1, hx⟩
  by_cases hb : m' = .bare
  · subst hb
    have := h1.bare rfl
    subst this
    exact ⟨.bare, ⟨fun _ => rfl, fun h => absurd rfl h, fun h => absurd rfl h⟩,
      h .bare i x hm hx⟩
  · refine ⟨.expanded, ⟨fun h => absurd (h1.1 h) hb, fun _ => by decide, fun _ _ => rfl⟩, ?_⟩
    exact Doc.fixed.prints hf hb (by decide) (h m' i x (fun h => absurd h hb) hx)

/-- The opening bracket, the leading holes, and the space after them. -/
def preDoc (o : Opts) (vcx : Cx) (l : Token) (H A : List Entry') : Doc :=
  tokDoc l ⊹ catAll ((H.map (mkItem o vcx true)).map ItemDoc.full) ⊹
    maybeSpace (!(H.map (mkItem o vcx true)).isEmpty && !(A.map (mkItem o vcx true)).isEmpty)

/-- The arguments between the leading holes and the closing bracket. -/
def midDoc (o : Opts) (vcx : Cx) (expand : Bool) (A : List Entry') (r : Token) : Doc :=
  if (A.map (mkItem o vcx true)).isEmpty then .nil
  else if !expand && hugging r (A.map (mkItem o vcx true)) then argsJoin (A.map (mkItem o vcx true))
  else softBlock (argsJoin (A.map (mkItem o vcx true)))

theorem same_broken (vcx : Cx) (expand : Bool) (l : Token) (H A : List Entry') (r : Token) :
    Same (brokenOut expand l (H.map (mkItem o vcx true)) (A.map (mkItem o vcx true)) r)
      (.group expand (preDoc o vcx l H A ⊹ midDoc o vcx expand A r ⊹ tokDoc r)) :=
  same_assoc.group expand

section
variable {vcx : Cx} {dir : Bool} {m : PMode} {i : Nat} {x : List El} {s s' : W} {ts ts' : List Token}

theorem pre_step {l : Token} {H A : List Entry'}
    (hc : ∀ p ∈ H, CoreA o p.1 ∧ p.1.Simple o ∧ p.1.isHole = true) (hv : ArgCx vcx) (hp : AllPlain ts)
    (h : Step m i (preDoc o vcx l H A) x s ts s' ts') :
    s' = .tok ∧ ∃ l' H', ts = l' :: (entToks H' ++ ts') ∧ linesBeforeToken l' = s.n ∧
      outTok l' = outTok l ∧ All2 (EntRe o vcx true (fun _ _ => True)) H H' ∧
      (∀ p' ∈ H', ∀ t ∈ p'.2, linesBeforeToken t = 0) ∧
      ∀ A', A'.length = A.length → Again m i (preDoc o vcx l H A) (preDoc o vcx l' H' A') x := by
  obtain ⟨x1, x2, s1, ts1, rfl, h1, h2⟩ := Step.cat h
  obtain ⟨x3, x4, s2, ts2, rfl, h3, h4⟩ := h2.cat
  obtain ⟨u, rfl, hu, hl, rfl, hA⟩ := h1.tokDoc
  obtain ⟨rfl, H', hH, hz, ht, hA2⟩ := holes_step hc hv hp.cons.2 h3
  obtain ⟨rfl, rfl⟩ := h4.maybeSpace
  refine ⟨rfl, u, H', by rw [ht], hl, hu, hH, hz, ?_⟩
  intro A' hA'
  refine hA.cat (hA2.cat (.of_eq h4 ?_))
  have e1 : (H'.map (mkItem o vcx true)).isEmpty = (H.map (mkItem o vcx true)).isEmpty := by
    have := hH.length
    cases H <;> cases H' <;> simp at this ⊢
  have e2 : (A'.map (mkItem o vcx true)).isEmpty = (A.map (mkItem o vcx true)).isEmpty := by
    cases A <;> cases A' <;> simp at hA' ⊢
  rw [e1, e2]

/-- Line breaks in the source that make arguments go on lines of their own. -/
def spread (H A : List Entry') : Bool :=
  H.any (fun p => p.2.any (fun t => decide (linesBeforeToken t > 0))) ||
  (match A with | p :: _ => decide (linesBefore p.1.tokens > 0) | [] => false) ||
  A.any (fun p => decide (linesBefore p.1.tokens > 1))

theorem spread_eq (hper : o.persistent = true) (H A : List Entry') :
    ((H.map (mkItem o vcx true)).any (fun h => h.sepLines > 1) ||
      (A.map (mkItem o vcx true)).any (fun x => x.lines > 1) ||
      argsBreak o (H.map (mkItem o vcx true)) (A.map (mkItem o vcx true))) = spread H A := by
  have e1 : ∀ p : Entry', ((mkItem o vcx true p).sepLines > 0) ↔ p.2.any (fun t => decide (linesBeforeToken t > 0)) = true := by
    intro p
    unfold ItemDoc.sepLines mkItem
    cases p.2 <;> simp
  rw [Bool.eq_iff_iff]
  unfold argsBreak spread
  simp only [hper, Bool.true_and, Bool.or_eq_true, List.any_eq_true, List.mem_map, decide_eq_true_eq]
  constructor
  · rintro ((⟨d, ⟨p, hp, rfl⟩, h⟩ | ⟨d, ⟨p, hp, rfl⟩, h⟩) | ⟨d, ⟨p, hp, rfl⟩, h⟩ | h)
    · exact .inl (.inl ⟨p, hp, (e1 p).1 (by omega)⟩)
    · exact .inr ⟨p, hp, h⟩
    · exact .inl (.inl ⟨p, hp, (e1 p).1 h⟩)
    · cases A with
      | nil => cases h
      | cons p A => exact .inl (.inr h)
  · rintro ((⟨p, hp, h⟩ | h) | ⟨p, hp, h⟩)
    · exact .inr (.inl ⟨_, ⟨p, hp, rfl⟩, (e1 p).2 h⟩)
    · cases A with
      | nil => cases h
      | cons p A => exact .inr (.inr h)
    · exact .inl (.inr ⟨_, ⟨p, hp, rfl⟩, h⟩)

theorem ite_or {α : Type} (a b : Bool) (x y : α) :
    (if a then x else if b then x else y) = if a || b then x else y := by
  cases a <;> cases b <;> rfl

theorem args_unfold {k : CallKind} {l r : Token} {items : Items} {H A : List Entry'}
    (hper : o.persistent = true) (hv : ArgCx vcx) (hs : items.Simple o) (he : items.entries = H ++ A)
    (hH : ∀ p ∈ H, p.1.isHole = true) (hA : ∀ p ∈ A.head?, p.1.isHole = false) (hn : H ++ A ≠ [])
    (ht : ¬ (k = .call ∧ isTestCall items = true)) :
    argsDoc o k {} l items (fmtItems o vcx true items) r =
      if spread H A then brokenOut true l (H.map (mkItem o vcx true)) (A.map (mkItem o vcx true)) r
      else if groupLast items then groupedArgs l (H.map (mkItem o vcx true)) (A.map (mkItem o vcx true)) r
      else brokenOut false l (H.map (mkItem o vcx true)) (A.map (mkItem o vcx true)) r := by
  have hse := simple_entries items hs
  rw [he] at hse
  have hsp := split_items (vcx := vcx) (dir := true) hse hH hA
  unfold argsDoc
  rw [fmtItems_map hv.flat, he]
  rw [if_neg (by simpa using hn), if_neg ht]
  dsimp only
  rw [hsp.1, hsp.2, ← spread_eq (vcx := vcx) hper H A]
  exact ite_or _ _ _ _

/-- What is read where the brackets and arguments of a call were printed. -/
structure ReArgs (o : Opts) (vcx : Cx) (k : CallKind) (m : PMode) (i : Nat) (l : Token) (items : Items)
    (r : Token) (x : List El) (s : W) (ts ts' : List Token) (l' : Token) (items' : Items) (r' : Token) :
    Prop where
  toks : ts = l' :: (items'.tokens ++ r' :: ts')
  lines : linesBeforeToken l' = s.n
  lout : outTok l' = outTok l
  rout : outTok r' = outTok r
  simple : items'.Simple o
  rew : ∃ items'', RewItems o vcx.core true items items'' ∧ items''.bare = items'.bare
  again : Again m i (argsDoc o k {} l items (fmtItems o vcx true items) r)
    (argsDoc o k {} l' items' (fmtItems o vcx true items') r') x

theorem All2.head {α β : Type} {R : α → β → Prop} {as : List α} {bs : List β} (h : All2 R as bs) :
    ∀ b ∈ bs.head?, ∃ a, as.head? = some a ∧ R a b := by
  intro b hb
  cases as with
  | nil => rw [h.nil_left] at hb; cases hb
  | cons a as =>
    obtain ⟨b', bs', rfl, h1, -⟩ := h.cons_left
    cases hb
    exact ⟨a, rfl, h1⟩

/-- The list of arguments that is read. -/
theorem args_close {k : CallKind} {l r l' r' : Token} {items : Items} {H A H' A' : List Entry'}
    (hper : o.persistent = true) (hv : ArgCx vcx) (hs : items.Simple o) (he : items.entries = H ++ A)
    (hH : ∀ p ∈ H, p.1.isHole = true) (hA : ∀ p ∈ A.head?, p.1.isHole = false) (hn : H ++ A ≠ [])
    (ht : ¬ (k = .call ∧ isTestCall items = true))
    (h1 : All2 (EntRe o vcx true (fun _ _ => True)) H H')
    (h2 : All2 (EntRe o vcx true (fun _ _ => True)) A A')
    (htk : ts = l' :: (entToks H' ++ (entToks A' ++ r' :: ts')))
    (hl : linesBeforeToken l' = s.n) (hlo : outTok l' = outTok l) (hro : outTok r' = outTok r)
    (hag : ∀ d', (if spread H' A' then brokenOut true l' (H'.map (mkItem o vcx true)) (A'.map (mkItem o vcx true)) r'
      else if groupLast items then groupedArgs l' (H'.map (mkItem o vcx true)) (A'.map (mkItem o vcx true)) r'
      else brokenOut false l' (H'.map (mkItem o vcx true)) (A'.map (mkItem o vcx true)) r') = d' →
      Again m i (argsDoc o k {} l items (fmtItems o vcx true items) r) d' x) :
    ∃ l' items' r', ReArgs o vcx k m i l items r x s ts ts' l' items' r' := by
  have hall := h1.append h2
  rw [← he] at hall
  obtain ⟨items', he', hs', hrew⟩ := rebuild items hall
  rw [← he'] at hall
  refine ⟨l', items', r', ?_, hl, hlo, hro, hs', hrew, ?_⟩
  · rw [htk, ← entries_toks, he', entToks_append]
    simp
  · have hH' : ∀ p ∈ H', p.1.isHole = true := by
      intro p hp
      obtain ⟨q, hq, hE⟩ := h1.mem_right p hp
      rw [sig_hole hE.sig]
      exact hH q hq
    have hA' : ∀ p ∈ A'.head?, p.1.isHole = false := by
      intro p hp
      obtain ⟨q, hq, hE⟩ := h2.head p hp
      rw [sig_hole hE.sig]
      exact hA q hq
    have hn' : H' ++ A' ≠ [] := by
      intro hh
      have e1 := h1.length
      have e2 := h2.length
      rw [List.append_eq_nil_iff] at hh
      rw [hh.1] at e1
      rw [hh.2] at e2
      apply hn
      rw [List.append_eq_nil_iff]
      exact ⟨List.eq_nil_of_length_eq_zero (by simpa using e1.symm),
        List.eq_nil_of_length_eq_zero (by simpa using e2.symm)⟩
    have ht' : ¬ (k = .call ∧ isTestCall items' = true) := by
      rw [isTestCall_same hall]
      exact ht
    apply hag
    rw [args_unfold hper hv hs' he' hH' hA' hn' ht', groupLast_same hs hs' hall]

theorem spread_head {H A : List Entry'} {p : Entry'} (h : A.head? = some p) (hl : linesBefore p.1.tokens = 1) :
    spread H A = true := by
  cases A with
  | nil => cases h
  | cons q A =>
    cases h
    simp [spread, hl]

theorem spread_none {H A : List Entry'} (hH : ∀ p ∈ H, ∀ t ∈ p.2, linesBeforeToken t = 0)
    (hA : ∀ p ∈ A.head?, linesBefore p.1.tokens = 0) (hA1 : ∀ p ∈ A, linesBefore p.1.tokens ≤ 1) :
    spread H A = false := by
  unfold spread
  simp only [Bool.or_eq_false_iff, List.any_eq_false]
  refine ⟨⟨?_, ?_⟩, ?_⟩
  · intro p hp
    have := hH p hp
    cases h : p.2 with
    | none => simp
    | some t => simp [this t h]
  · cases A with
    | nil => rfl
    | cons p A => simp [hA p rfl]
  · intro p hp
    have := hA1 p hp
    simp; omega

theorem not_spread {H A : List Entry'} (h : spread H A = false) :
    (∀ p ∈ A, linesBefore p.1.tokens ≤ 1) := by
  unfold spread at h
  simp only [Bool.or_eq_false_iff, List.any_eq_false] at h
  intro p hp
  have := h.2 p hp
  simp at this
  omega


theorem args_empty {vcx : Cx} {k : CallKind} {l r : Token} :
    argsDoc o k {} l .nil (fmtItems o vcx true .nil) r = tokDoc l ⊹ .nil ⊹ tokDoc r := rfl

theorem args_test {vcx : Cx} {k : CallKind} {l r : Token} {items : Items} (hv : ArgCx vcx)
    (hn : items.entries ≠ []) (ht : k = .call ∧ isTestCall items = true) :
    argsDoc o k {} l items (fmtItems o vcx true items) r =
      tokDoc l ⊹ testJoin (items.entries.map (mkItem o vcx true)) ⊹ tokDoc r := by
  unfold argsDoc
  rw [fmtItems_map hv.flat, if_neg (by simpa using hn), if_pos ht]

theorem mid_nil (vcx : Cx) (expand : Bool) (r : Token) : midDoc o vcx expand [] r = .nil := rfl

theorem mid_soft {vcx : Cx} {expand : Bool} {A : List Entry'} {r : Token} (hn : A ≠ [])
    (h : (!expand && hugging r (A.map (mkItem o vcx true))) = false) :
    midDoc o vcx expand A r = softBlock (argsJoin (A.map (mkItem o vcx true))) := by
  unfold midDoc
  rw [if_neg (by simpa using hn), h]
  rfl

theorem mid_hug {vcx : Cx} {A : List Entry'} {r : Token} (hn : A ≠ [])
    (h : hugging r (A.map (mkItem o vcx true)) = true) :
    midDoc o vcx false A r = argsJoin (A.map (mkItem o vcx true)) := by
  unfold midDoc
  rw [if_neg (by simpa using hn), h]
  rfl

/-- Arguments between soft line breaks. -/
theorem soft_step {A : List Entry'} (hc : ∀ p ∈ A, CoreA o p.1 ∧ p.1.Simple o) (hv : ArgCx vcx)
    (hsp : seps A) (hp : AllPlain ts)
    (h : Step m i (softBlock (argsJoin (A.map (mkItem o vcx dir)))) x .tok ts s' ts') :
    ∃ A', All2 (EntRe o vcx dir (fun _ _ => True)) A A' ∧
      All2 (EntRe o vcx dir (lineN m)) A.tail A'.tail ∧
      (∀ p ∈ A.head?, ∀ p' ∈ A'.head?, linesBefore p'.1.tokens =
        if p.1.isHole then 0 else if m = .expanded then 1 else 0) ∧
      ts = entToks A' ++ ts' ∧
      Again m i (softBlock (argsJoin (A.map (mkItem o vcx dir))))
        (softBlock (argsJoin (A'.map (mkItem o vcx dir)))) x := by
  obtain ⟨x1, x2, s1, ts1, rfl, h1, h2⟩ := Step.cat h
  obtain ⟨x3, x4, s2, ts2, rfl, h3, h4⟩ := h1.indent.cat
  obtain ⟨hl1, rfl, hl3⟩ := h3.line
  obtain ⟨hm1, rfl, hm3⟩ := h2.line
  obtain ⟨A', hA1, hA2, hhd, ht, hag⟩ := join_step hc hv hsp hp h4
  refine ⟨A', hA1, hA2, ?_, ht, (Again.cat (.refl h3) hag).indent.cat (.refl h2)⟩
  intro p hp p' hp'
  rw [hhd p hp p' hp', hl1]
  simp only [W.line]
  split
  · rfl
  · split <;> rfl

theorem lineN_flat {m : PMode} {p : Entry'} {n : Nat} (h : lineN m p n) (hm : m ≠ .expanded)
    (hl : linesBefore p.1.tokens ≤ 1) : n = 0 := by
  unfold lineN at h
  simp [h, hl, hm]

theorem all2_tail_zero {A A' : List Entry'} (h : All2 (EntRe o vcx dir (lineN m)) A.tail A'.tail)
    (hm : m ≠ .expanded) (hl : ∀ p ∈ A, linesBefore p.1.tokens ≤ 1)
    (hhd : ∀ p' ∈ A'.head?, linesBefore p'.1.tokens = 0) : ∀ p' ∈ A', linesBefore p'.1.tokens ≤ 1 := by
  intro p' hp'
  cases A' with
  | nil => cases hp'
  | cons q A' =>
    rcases List.mem_cons.1 hp' with rfl | hp'
    · rw [hhd _ rfl]; omega
    · obtain ⟨p, hp, hE⟩ := h.mem_right p' hp'
      rw [lineN_flat hE.lines hm (hl p (List.mem_of_mem_tail hp))]
      omega

/-- Arguments on lines of their own. -/
theorem out_step {l r : Token} {H A : List Entry'}
    (hcH : ∀ p ∈ H, CoreA o p.1 ∧ p.1.Simple o ∧ p.1.isHole = true)
    (hcA : ∀ p ∈ A, CoreA o p.1 ∧ p.1.Simple o) (hA : ∀ p ∈ A.head?, p.1.isHole = false)
    (hv : ArgCx vcx) (hsp : seps (H ++ A)) (hp : AllPlain ts) (hne : A ≠ [])
    (h : Step m i (brokenOut true l (H.map (mkItem o vcx true)) (A.map (mkItem o vcx true)) r) x s ts s' ts') :
    s' = .tok ∧ ∃ l' H' A' r', ts = l' :: (entToks H' ++ (entToks A' ++ r' :: ts')) ∧
      linesBeforeToken l' = s.n ∧ outTok l' = outTok l ∧ outTok r' = outTok r ∧
      All2 (EntRe o vcx true (fun _ _ => True)) H H' ∧ All2 (EntRe o vcx true (fun _ _ => True)) A A' ∧
      spread H' A' = true ∧
      Again m i (brokenOut true l (H.map (mkItem o vcx true)) (A.map (mkItem o vcx true)) r)
        (brokenOut true l' (H'.map (mkItem o vcx true)) (A'.map (mkItem o vcx true)) r') x := by
  have hS := h.same (same_broken vcx true l H A r)
  obtain ⟨m', hm, hb, h1⟩ := hS.group
  have hmb : m ≠ .bare := fun h => by have := hb h; cases this
  have hm' := hm.2.2 hmb rfl
  subst hm'
  obtain ⟨x1, x2, s1, ts1, rfl, h2, h3⟩ := h1.cat
  obtain ⟨x3, x4, s2, ts2, rfl, h4, h5⟩ := h3.cat
  obtain ⟨rfl, l', H', rfl, hl, hlo, hH, hz, hagp⟩ := pre_step hcH hv hp h2
  rw [mid_soft hne rfl] at h4
  have hp' := hp.cons.2.append.2
  obtain ⟨A', hA1, hA2, hhd, rfl, hag⟩ := soft_step hcA hv (seps_drop hsp) hp' h4
  obtain ⟨r', rfl, hro, hrl, rfl, hagr⟩ := h5.tokDoc
  refine ⟨rfl, l', H', A', r', rfl, hl, hlo, hro, hH, hA1, ?_, ?_⟩
  · cases A with
    | nil => exact absurd rfl hne
    | cons p A =>
      obtain ⟨p', A', rfl, -, -⟩ := hA1.cons_left
      refine spread_head (p := p') rfl ?_
      rw [hhd p rfl p' rfl, hA p rfl]
      rfl
  · have hne' : A' ≠ [] := by
      intro hh
      have := hA1.length
      rw [hh] at this
      exact hne (List.eq_nil_of_length_eq_zero (by simpa using this.symm))
    refine Again.same (Again.group (m' := .expanded) (ex := true) ((hagp A' hA1.length).cat (Again.cat ?_ hagr)) hm hb (fun h => h))
      (same_broken vcx true l H A r) (same_broken vcx true l' H' A' r')
    rw [mid_soft hne rfl, mid_soft hne' rfl]
    exact hag


theorem all2_ne {α β : Type} {R : α → β → Prop} {as : List α} {bs : List β} (h : All2 R as bs)
    (hn : as ≠ []) : bs ≠ [] := by
  intro hh
  have := h.length
  rw [hh] at this
  exact hn (List.eq_nil_of_length_eq_zero (by simpa using this.symm))

theorem fixed_pre {l : Token} {H A : List Entry'} (hs : ∀ p ∈ H, p.1.Simple o) (hv : ArgCx vcx) :
    (preDoc o vcx l H A).fixed = true := by
  unfold preDoc
  simp only [Doc.fixed, Bool.and_eq_true]
  refine ⟨rfl, fixed_catAll ?_, ?_⟩
  · simp only [List.mem_map]
    rintro d ⟨e, ⟨p, hp, rfl⟩, rfl⟩
    simp only [ItemDoc.full, Doc.fixed, fixed_sep, Bool.and_true]
    unfold mkItem argD
    dsimp only
    rw [(same_arg (hs p hp) true).fixed]
    exact fixed_fmtArg p.1 _ (hs p hp) hv.table hv.chain
  · unfold maybeSpace
    split <;> rfl

/-- Layouts without line breaks do not depend on the indentation. -/
theorem bare_indent {i j : Nat} : ∀ (d : Doc) (x : List El), Prints .bare i d x → x.all El.isInline = true →
    Prints .bare j d x := by
  intro d
  induction d generalizing i j with
  | cat a b iha ihb =>
    rintro _ ⟨x, y, rfl, hx, hy⟩ hi
    rw [List.all_append, Bool.and_eq_true] at hi
    exact ⟨x, y, rfl, iha x hx hi.1, ihb y hy hi.2⟩
  | suffix l t =>
    intro x hx hi
    have hx : x = [.suffix l i t] := hx
    subst hx
    simp [El.isInline] at hi
  | line l =>
    intro x hx hi
    have hx : x = lineEls .bare i l := hx
    subst hx
    cases l with
    | hard => simp [lineEls, El.isInline] at hi
    | empty => simp [lineEls, El.isInline] at hi
    | _ => rfl
  | indent d ih => intro x hx hi; exact ih x hx hi
  | group ex d ih =>
    rintro x ⟨m', hm, hx⟩ hi
    have := hm.1 rfl
    subst this
    exact ⟨.bare, hm, ih x hx hi⟩
  | ifBreaks d ih =>
    rintro x (⟨h, -⟩ | h) hi
    · cases h
    · exact .inr h
  | noSoft d ih =>
    rintro x ⟨hx, h1, h2⟩ hi
    exact ⟨ih x hx h1, h1, h2⟩
  | alt a b iha ihb =>
    rintro x (hx | hx) hi
    · exact .inl (iha x hx hi)
    · exact .inr (ihb x hx hi)
  | _ => intro x hx hi; exact hx

/-- The three variants of grouped arguments; without soft line breaks there is only one. -/
theorem grouped_first {l r : Token} {H A : List Entry'} (hs : ∀ p ∈ A, p.1.Simple o) (hne : A ≠ [])
    (h : Step .bare i (groupedArgs l (H.map (mkItem o vcx true)) (A.map (mkItem o vcx true)) r) x s ts s' ts') :
    Step .bare i (.group false (preDoc o vcx l H A ⊹
      groupedJoin false (A.length == 1) (A.map (mkItem o vcx true)) ⊹ tokDoc r)) x s ts s' ts' := by
  have hlen : (A.map (mkItem o vcx true)).length = A.length := by simp
  have hw := h.calm rfl
  have hi := h.inline rfl
  have hx := h.prints
  unfold groupedArgs at hw hx
  dsimp only at hw hx
  rw [hlen] at hw hx
  have h2 : (groupedJoin true (A.length == 1) (A.map (mkItem o vcx true))).willBreak = true := by
    clear h hs hlen hw hx
    generalize (A.length == 1) = single
    induction A with
    | nil => exact absurd rfl hne
    | cons p A ih =>
      cases A with
      | nil => rfl
      | cons q A =>
        have := ih (by simp)
        simp only [List.map, groupedJoin, Doc.willBreak] at this ⊢
        rw [this]
        simp
  have h3 : (brokenOut true l (H.map (mkItem o vcx true)) (A.map (mkItem o vcx true)) r).willBreak = true := rfl
  have hw1 : (Doc.group false (preDoc o vcx l H A ⊹
      groupedJoin false (A.length == 1) (A.map (mkItem o vcx true)) ⊹ tokDoc r)).willBreak = false := by
    simp only [Doc.willBreak, h2, h3, Bool.or_true, Bool.true_or, Bool.and_true, Bool.false_or] at hw ⊢
    exact hw
  refine ⟨?_, fun _ => hi, fun _ => hw1, h.walks⟩
  simp only [Doc.willBreak, Bool.false_or, Bool.or_eq_false_iff] at hw1
  rcases hx with hx | hx | hx
  · exact hx
  · obtain ⟨m', hm, x1, _, rfl, h4, x2, x3, rfl, h5, h6⟩ := hx
    have hm' := hm.1 rfl
    subst hm'
    simp only [List.all_append, Bool.and_eq_true] at hi
    exact ⟨.bare, hm, x1, _, rfl, h4, x2, x3, rfl, bare_join hs hi.2.1 hw1.2.1 (.inl h5), h6⟩
  · rw [(same_broken vcx true l H A r).prints] at hx
    obtain ⟨m', hm, x1, _, rfl, h4, x2, x3, rfl, h5, h6⟩ := hx
    have hm' := hm.1 rfl
    subst hm'
    simp only [List.all_append, Bool.and_eq_true] at hi
    refine ⟨.bare, ⟨fun _ => rfl, fun h => absurd rfl h, fun h => absurd rfl h⟩,
      x1, _, rfl, h4, x2, x3, rfl, bare_join hs hi.2.1 hw1.2.1 (.inr ?_), h6⟩
    rw [mid_soft hne rfl] at h5
    obtain ⟨y1, y2, rfl, ⟨y3, y4, rfl, h7, h8⟩, h9⟩ := h5
    have h7 : y3 = [] := h7
    have h9 : y2 = [] := h9
    subst h7 h9
    rw [List.append_nil, List.nil_append]
    exact bare_indent _ _ h8 (by simpa using hi.2.1)


/-- The variant of grouped arguments: `ex`: the last one is in an expanded group. -/
def variant (o : Opts) (vcx : Cx) (ex : Bool) (l : Token) (H A : List Entry') (r : Token) : Doc :=
  .group false (preDoc o vcx l H A ⊹ groupedJoin ex (A.length == 1) (A.map (mkItem o vcx true)) ⊹ tokDoc r)

theorem grouped_eq (vcx : Cx) (l : Token) (H A : List Entry') (r : Token) :
    groupedArgs l (H.map (mkItem o vcx true)) (A.map (mkItem o vcx true)) r =
      .alt (variant o vcx false l H A r) (.alt (variant o vcx true l H A r)
        (brokenOut true l (H.map (mkItem o vcx true)) (A.map (mkItem o vcx true)) r)) := by
  unfold groupedArgs variant preDoc
  simp only [List.length_map]

theorem pre_refines {l l' : Token} {H A H' A' : List Entry'} {L : Entry' → Nat → Prop} (hl : outTok l' = outTok l)
    (h : All2 (EntRe o vcx true L) H H') (hA : A'.length = A.length) :
    Refines (preDoc o vcx l' H' A') (preDoc o vcx l H A) := by
  unfold preDoc
  have e1 : (H'.map (mkItem o vcx true)).isEmpty = (H.map (mkItem o vcx true)).isEmpty := by
    have := h.length
    cases H <;> cases H' <;> simp at this ⊢
  have e2 : (A'.map (mkItem o vcx true)).isEmpty = (A.map (mkItem o vcx true)).isEmpty := by
    cases A <;> cases A' <;> simp at hA ⊢
  rw [e1, e2]
  have : tokDoc l' = tokDoc l := by rw [tokDoc, hl]; rfl
  rw [this]
  exact (Refines.refl _).cat ((holes_refines h).cat (.refl _))

theorem group_step {ex : Bool} {l r : Token} {H A : List Entry'}
    (hcH : ∀ p ∈ H, CoreA o p.1 ∧ p.1.Simple o ∧ p.1.isHole = true)
    (hcA : ∀ p ∈ A, CoreA o p.1 ∧ p.1.Simple o) (hA : ∀ p ∈ A.head?, p.1.isHole = false)
    (hln : ∀ p ∈ A, linesBefore p.1.tokens ≤ 1)
    (hv : ArgCx vcx) (hsp : seps (H ++ A)) (hp : AllPlain ts) (hne : A ≠ [])
    (h : Step m i (variant o vcx ex l H A r) x s ts s' ts') :
    s' = .tok ∧ ∃ l' H' A' r', ts = l' :: (entToks H' ++ (entToks A' ++ r' :: ts')) ∧
      linesBeforeToken l' = s.n ∧ outTok l' = outTok l ∧ outTok r' = outTok r ∧
      All2 (EntRe o vcx true (fun _ _ => True)) H H' ∧ All2 (EntRe o vcx true (fun _ _ => True)) A A' ∧
      spread H' A' = false ∧ Prints m i (variant o vcx ex l' H' A' r') x ∧
      (m = .bare → (variant o vcx ex l' H' A' r').willBreak = false) ∧
      Refines (groupedArgs l' (H'.map (mkItem o vcx true)) (A'.map (mkItem o vcx true)) r')
        (groupedArgs l (H.map (mkItem o vcx true)) (A.map (mkItem o vcx true)) r) := by
  unfold variant at h
  obtain ⟨m', hm, hb, h1⟩ := h.group
  obtain ⟨x1, x2, s1, ts1, rfl, h2, h3⟩ := h1.cat
  obtain ⟨x3, x4, s2, ts2, rfl, h4, h5⟩ := h3.cat
  obtain ⟨rfl, l', H', rfl, hl, hlo, hH, hz, hagp⟩ := pre_step hcH hv hp h2
  have hp' := hp.cons.2.append.2
  obtain ⟨A', hA1, hhd, rfl, hpr, hcl, href⟩ := grouped_step hcA hv (seps_drop hsp) (by decide) hp' h4
  obtain ⟨r', rfl, hro, hrl, rfl, hagr⟩ := h5.tokDoc
  have hlen := hA1.length
  have hA2 : All2 (EntRe o vcx true (fun _ _ => True)) A A' := hA1.imp (fun a b h => h.weaken (fun _ _ => trivial))
  have hA3 : All2 (EntRe o vcx true (fun p n => n ≤ 1 ↔ linesBefore p.1.tokens ≤ 1)) A A' := by
    clear hA2 hlen hpr hcl href h hne hA hcA hp hp' hhd h2 h3 h4 h5 hagr hsp h1 hagp
    induction A generalizing A' with
    | nil => rw [hA1.nil_left]; trivial
    | cons p A ih =>
      obtain ⟨p', A', rfl, e1, e2⟩ := hA1.cons_left
      exact ⟨e1.weaken (fun n hn => by simp [hn, hln p (by simp)]), ih (fun q hq => hln q (by simp [hq])) A' e2⟩
  have hr : tokDoc r' = tokDoc r := by rw [tokDoc, hro]; rfl
  have hvar : ∀ ex2, Refines (variant o vcx ex2 l' H' A' r') (variant o vcx ex2 l H A r) := by
    intro ex2
    unfold variant
    rw [hlen, hr]
    exact ((pre_refines hlo hH hlen).cat ((href ex2).cat (.refl _))).group (fun h => h)
  refine ⟨rfl, l', H', A', r', rfl, hl, hlo, hro, hH, hA2, ?_, ?_, ?_, ?_⟩
  · refine spread_none hz ?_ ?_
    · intro p' hp'
      cases A with
      | nil => exact absurd rfl hne
      | cons p A =>
        rw [hhd p rfl p' hp']
        split <;> rfl
    · intro p' hp'
      obtain ⟨p, hp, hE⟩ := hA1.mem_right p' hp'
      exact hE.lines
  · unfold variant
    rw [hlen]
    exact ⟨m', hm, x1, _, rfl, (hagp A' hlen).prints, x3, x4, rfl, hpr, hagr.prints⟩
  · intro hb
    unfold variant
    rw [hlen]
    have hb' := hm.1 hb
    simp only [Doc.willBreak, Bool.or_eq_false_iff]
    exact ⟨trivial, (hagp A' hlen).calm hb', hcl hb', hagr.calm hb'⟩
  · rw [grouped_eq, grouped_eq]
    refine (hvar false).alt ((hvar true).alt ?_)
    refine Refines.same ?_ (same_broken vcx true l' H' A' r') (same_broken vcx true l H A r)
    rw [mid_soft hne rfl, mid_soft (all2_ne hA1 hne) rfl, hr]
    refine Refines.group ((pre_refines hlo hH hlen).cat (Refines.cat ?_ (.refl _))) (fun h => h)
    refine Refines.softBlock (join_refines hA1 ?_)
    cases A with
    | nil => exact absurd rfl hne
    | cons p A =>
      obtain ⟨p', A', rfl, e1, e2⟩ := hA3.cons_left
      exact e2

/-- Arguments that are on one line if they fit. -/
theorem fill_step {l r : Token} {H A : List Entry'}
    (hcH : ∀ p ∈ H, CoreA o p.1 ∧ p.1.Simple o ∧ p.1.isHole = true)
    (hcA : ∀ p ∈ A, CoreA o p.1 ∧ p.1.Simple o) (hA : ∀ p ∈ A.head?, p.1.isHole = false)
    (hln : ∀ p ∈ A, linesBefore p.1.tokens ≤ 1) (hrp : Bland r)
    (hv : ArgCx vcx) (hsp : seps (H ++ A)) (hp : AllPlain ts)
    (h : Step m i (brokenOut false l (H.map (mkItem o vcx true)) (A.map (mkItem o vcx true)) r) x s ts s' ts') :
    s' = .tok ∧ ∃ l' H' A' r', ts = l' :: (entToks H' ++ (entToks A' ++ r' :: ts')) ∧
      linesBeforeToken l' = s.n ∧ outTok l' = outTok l ∧ outTok r' = outTok r ∧
      All2 (EntRe o vcx true (fun _ _ => True)) H H' ∧ All2 (EntRe o vcx true (fun _ _ => True)) A A' ∧
      Again m i (brokenOut false l (H.map (mkItem o vcx true)) (A.map (mkItem o vcx true)) r)
        (brokenOut (spread H' A') l' (H'.map (mkItem o vcx true)) (A'.map (mkItem o vcx true)) r') x := by
  have hS := h.same (same_broken vcx false l H A r)
  obtain ⟨m', hm, hb, h1⟩ := hS.group
  obtain ⟨x1, x2, s1, ts1, rfl, h2, h3⟩ := h1.cat
  obtain ⟨x3, x4, s2, ts2, rfl, h4, h5⟩ := h3.cat
  obtain ⟨rfl, l', H', rfl, hl, hlo, hH, hz, hagp⟩ := pre_step hcH hv hp h2
  have hp' := hp.cons.2.append.2
  by_cases hne : A = []
  · subst hne
    rw [mid_nil] at h4
    obtain ⟨rfl, rfl, rfl⟩ := h4.nil
    obtain ⟨r', rfl, hro, hrl, rfl, hagr⟩ := h5.tokDoc
    refine ⟨rfl, l', H', [], r', rfl, hl, hlo, hro, hH, trivial, ?_⟩
    rw [spread_none hz (by simp) (by simp)]
    refine Again.same (Again.group (ex := false) ((hagp [] rfl).cat (Again.cat (.refl h4) hagr)) hm hb
      (fun h => h)) (same_broken vcx false l H [] r) (same_broken vcx false l' H' [] r')
  · cases hhug : hugging r (A.map (mkItem o vcx true)) with
    | true =>
      rw [mid_hug hne hhug] at h4
      obtain ⟨A', hA1, hA2, hhd, rfl, hag⟩ := join_step hcA hv (seps_drop hsp) hp' h4
      obtain ⟨r', rfl, hro, hrl, rfl, hagr⟩ := h5.tokDoc
      refine ⟨rfl, l', H', A', r', rfl, hl, hlo, hro, hH, hA1, ?_⟩
      have hhug' := hugging_same hrp (hp'.append.2.cons.1) (fun p hp => (hcA p hp).2) hA1
      rw [hhug] at hhug'
      have hne' := all2_ne hA1 hne
      have h0 : ∀ p' ∈ A'.head?, linesBefore p'.1.tokens = 0 := by
        intro p' hp'
        cases A with
        | nil => exact absurd rfl hne
        | cons p A =>
          rw [hhd p rfl p' hp']
          split <;> rfl
      have hone : ∀ p' ∈ A', linesBefore p'.1.tokens ≤ 1 := by
        match A, A', hA1, hhug, h0 with
        | [p], [p'], _, _, h0 =>
          simp only [List.mem_singleton]
          rintro _ rfl
          rw [h0 _ rfl]; omega
        | [], _, _, hhug, _ => cases hhug
        | _ :: _ :: _, _, _, hhug, _ => cases hhug
        | [_], [], h, _, _ => exact h.elim
        | [_], _ :: _ :: _, h, _, _ => exact h.2.elim
      rw [spread_none hz h0 hone]
      refine Again.same (Again.group (ex := false) ((hagp A' hA1.length).cat (Again.cat ?_ hagr)) hm hb
        (fun h => h)) (same_broken vcx false l H A r) (same_broken vcx false l' H' A' r')
      rw [mid_hug hne hhug, mid_hug hne' hhug']
      exact hag
    | false =>
      rw [mid_soft hne (by rw [hhug]; rfl)] at h4
      obtain ⟨A', hA1, hA2, hhd, rfl, hag⟩ := soft_step hcA hv (seps_drop hsp) hp' h4
      obtain ⟨r', rfl, hro, hrl, rfl, hagr⟩ := h5.tokDoc
      refine ⟨rfl, l', H', A', r', rfl, hl, hlo, hro, hH, hA1, ?_⟩
      have hhug' := hugging_same hrp (hp'.append.2.cons.1) (fun p hp => (hcA p hp).2) hA1
      rw [hhug] at hhug'
      have hne' := all2_ne hA1 hne
      have hmain : ∀ e, (e = true → m' = .expanded) →
          Again m i (brokenOut false l (H.map (mkItem o vcx true)) (A.map (mkItem o vcx true)) r)
          (brokenOut e l' (H'.map (mkItem o vcx true)) (A'.map (mkItem o vcx true)) r') (x1 ++ (x3 ++ x4)) := by
        intro e he
        have hmb : e = true → m ≠ .bare := by
          intro h1 h2
          have := hm.1 h2
          rw [he h1] at this
          cases this
        refine Again.same (Again.group (ex := false) ((hagp A' hA1.length).cat (Again.cat ?_ hagr))
          ⟨hm.1, hm.2.1, fun _ h => he h⟩ ?_
          (fun h => by cases h)) (same_broken vcx false l H A r) (same_broken vcx e l' H' A' r')
        · rw [mid_soft hne (by rw [hhug]; rfl), mid_soft hne' (by rw [hhug', Bool.and_false])]
          exact hag
        · intro h
          cases e with
          | false => rfl
          | true => exact absurd h (hmb rfl)
      by_cases hex : m' = .expanded
      · exact hmain _ (fun _ => hex)
      · have h0 : ∀ p' ∈ A'.head?, linesBefore p'.1.tokens = 0 := by
          intro p' hp'
          cases A with
          | nil => exact absurd rfl hne
          | cons p A =>
            rw [hhd p rfl p' hp', if_neg hex]
            split <;> rfl
        rw [spread_none hz h0 (all2_tail_zero hA2 hex hln h0)]
        exact hmain false (fun h => by cases h)

theorem args_step {k : CallKind} {l r : Token} {items : Items} (hper : o.persistent = true)
    (hc : ∀ p ∈ items.entries, CoreA o p.1) (hs : items.Simple o) (hv : ArgCx vcx) (hrp : Bland r)
    (hp : AllPlain ts)
    (h : Step m i (argsDoc o k {} l items (fmtItems o vcx true items) r) x s ts s' ts') :
    s' = .tok ∧ ∃ l' items' r', ReArgs o vcx k m i l items r x s ts ts' l' items' r' := by
  by_cases hn : items.entries = []
  · have : items = .nil := by cases items <;> simp [Items.entries] at hn ⊢
    subst this
    rw [args_empty] at h
    obtain ⟨x1, x2, s1, ts1, rfl, h1, h2⟩ := Step.cat h
    obtain ⟨x3, x4, s2, ts2, rfl, h3, h4⟩ := h2.cat
    obtain ⟨l', rfl, hlo, hl, rfl, hA⟩ := h1.tokDoc
    obtain ⟨rfl, rfl, rfl⟩ := h3.nil
    obtain ⟨r', rfl, hro, hrl, rfl, hagr⟩ := h4.tokDoc
    exact ⟨rfl, l', .nil, r', rfl, hl, hlo, hro, trivial, ⟨.nil, by rw [RewItems], rfl⟩,
      hA.cat (Again.cat (.refl h3) hagr)⟩
  have hse := simple_entries items hs
  by_cases ht : k = .call ∧ isTestCall items = true
  · rw [args_test hv hn ht] at h
    obtain ⟨x1, x2, s1, ts1, rfl, h1, h2⟩ := Step.cat h
    obtain ⟨x3, x4, s2, ts2, rfl, h3, h4⟩ := h2.cat
    obtain ⟨l', rfl, hlo, hl, rfl, hA⟩ := h1.tokDoc
    obtain ⟨en', hE, rfl, hag⟩ := test_step (fun p hp => ⟨hc p hp, hse p hp⟩) hv hp.cons.2 h3
    obtain ⟨r', rfl, hro, hrl, rfl, hagr⟩ := h4.tokDoc
    obtain ⟨items', rfl, hs', hrew⟩ := rebuild items hE
    refine ⟨rfl, l', items', r', by rw [entries_toks], hl, hlo, hro, hs', hrew, ?_⟩
    rw [args_test hv hn ht, args_test hv (all2_ne hE hn) ⟨ht.1, by rw [isTestCall_same hE]; exact ht.2⟩]
    exact hA.cat (hag.cat hagr)
  obtain ⟨H, A, he, hH, hA⟩ := holes_apart items.entries
  rw [he] at hc hse hn
  have hu := args_unfold (k := k) (l := l) (r := r) (vcx := vcx) hper hv hs he hH hA hn ht
  have hsp := seps_entries items
  rw [he] at hsp
  have hcH : ∀ p ∈ H, CoreA o p.1 ∧ p.1.Simple o ∧ p.1.isHole = true :=
    fun p hp => ⟨hc p (by simp [hp]), hse p (by simp [hp]), hH p hp⟩
  have hcA : ∀ p ∈ A, CoreA o p.1 ∧ p.1.Simple o := fun p hp => ⟨hc p (by simp [hp]), hse p (by simp [hp])⟩
  rw [hu] at h
  have hgl : A = [] → groupLast items = false := by
    intro hA0
    cases hg : groupLast items with
    | false => rfl
    | true =>
      obtain ⟨p, hp1, hp2⟩ := groupLast_last hg
      rw [he, hA0, List.append_nil] at hp1
      rw [hH p (List.mem_of_getLast? hp1)] at hp2
      cases hp2
  split at h
  · rename_i hspread
    by_cases hne : A = []
    · subst hne
      have hS := h.same (same_broken vcx true l H [] r)
      obtain ⟨m', hm, hb, h1⟩ := hS.group
      obtain ⟨x1, x2, s1, ts1, rfl, h2, h3⟩ := h1.cat
      obtain ⟨x3, x4, s2, ts2, rfl, h4, h5⟩ := h3.cat
      obtain ⟨rfl, l', H', rfl, hl, hlo, hHH, hz, hagp⟩ := pre_step hcH hv hp h2
      rw [mid_nil] at h4
      obtain ⟨rfl, rfl, rfl⟩ := h4.nil
      obtain ⟨r', rfl, hro, hrl, rfl, hagr⟩ := h5.tokDoc
      refine ⟨rfl, args_close hper hv hs he hH hA hn ht hHH (A' := []) trivial rfl hl hlo hro ?_⟩
      rintro _ rfl
      rw [spread_none hz (by simp) (by simp), hgl rfl, hu, if_pos hspread]
      have hall := (hagp [] rfl).cat (Again.cat (Again.refl h4) hagr)
      refine Again.same (d := .group true (preDoc o vcx l H [] ⊹ .nil ⊹ tokDoc r))
        (d' := .group false (preDoc o vcx l' H' [] ⊹ .nil ⊹ tokDoc r')) ⟨?_, ?_, ?_⟩
        (same_broken vcx true l H [] r) (same_broken vcx false l' H' [] r')
      · exact ⟨m', ⟨hm.1, hm.2.1, fun _ h => by cases h⟩, hall.prints⟩
      · intro h
        simp only [Doc.willBreak, Bool.false_or]
        exact hall.calm (hm.1 h)
      · refine hall.refines.opened ?_
        simp only [Doc.fixed, fixed_pre (fun p hp => (hcH p hp).2.1) hv, tokDoc, Bool.and_true]
    · obtain ⟨rfl, l', H', A', r', htk, hl, hlo, hro, hHH, hAA, hs1, hag⟩ :=
        out_step hcH hcA hA hv hsp hp hne h
      refine ⟨rfl, args_close hper hv hs he hH hA hn ht hHH hAA htk hl hlo hro ?_⟩
      rintro _ rfl
      rw [hs1, hu, if_pos hspread]
      exact hag
  · rename_i hspread
    have hln := not_spread (by simpa using hspread)
    split at h
    · rename_i hg
      have hne : A ≠ [] := by
        intro h; have := hgl h; rw [hg] at this; cases this
      have hvar : ∀ ex, Step m i (variant o vcx ex l H A r) x s ts s' ts' →
          s' = .tok ∧ ∃ l' items' r', ReArgs o vcx k m i l items r x s ts ts' l' items' r' := by
        intro ex hx
        obtain ⟨rfl, l', H', A', r', htk, hl, hlo, hro, hHH, hAA, hs1, hpr, hcl, href⟩ :=
          group_step hcH hcA hA hln hv hsp hp hne hx
        refine ⟨rfl, args_close hper hv hs he hH hA hn ht hHH hAA htk hl hlo hro ?_⟩
        rintro _ rfl
        rw [hs1, hu, if_neg hspread, if_pos hg, if_neg (by decide), if_pos hg]
        refine ⟨?_, ?_, href⟩
        · rw [grouped_eq]
          cases ex with
          | false => exact .inl hpr
          | true => exact .inr (.inl hpr)
        · intro hb
          rw [grouped_eq]
          have := hcl hb
          cases ex with
          | false => simp only [Doc.willBreak, this, Bool.false_and]
          | true => simp only [Doc.willBreak, this, Bool.false_and, Bool.and_false]
      by_cases hb : m = .bare
      · subst hb
        exact hvar false (grouped_first (fun p hp => (hcA p hp).2) hne h)
      · have hx := h.prints
        rw [grouped_eq] at hx
        rcases hx with hx | hx | hx
        · exact hvar false ⟨hx, h.inline, fun h => absurd h hb, h.walks⟩
        · exact hvar true ⟨hx, h.inline, fun h => absurd h hb, h.walks⟩
        · obtain ⟨rfl, l', H', A', r', htk, hl, hlo, hro, hHH, hAA, hs1, hag⟩ :=
            out_step hcH hcA hA hv hsp hp hne ⟨hx, h.inline, fun h => absurd h hb, h.walks⟩
          refine ⟨rfl, args_close hper hv hs he hH hA hn ht hHH hAA htk hl hlo hro ?_⟩
          rintro _ rfl
          rw [hs1, hu, if_neg hspread, if_pos hg]
          refine ⟨hag.prints, fun h => absurd h hb, ?_⟩
          rw [grouped_eq]
          exact hag.refines.right.right
    · rename_i hg
      obtain ⟨rfl, l', H', A', r', htk, hl, hlo, hro, hHH, hAA, hag⟩ :=
        fill_step hcH hcA hA hln hrp hv hsp hp h
      refine ⟨rfl, args_close hper hv hs he hH hA hn ht hHH hAA htk hl hlo hro ?_⟩
      rintro _ rfl
      rw [hu, if_neg hspread, if_neg hg, if_neg hg]
      cases hs1 : spread H' A' <;> rw [hs1] at hag <;> exact hag

end

end Verif.Format
