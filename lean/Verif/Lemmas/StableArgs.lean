import Verif.Lemmas.StableItems

/-!
# Argument lists in a formatted text
-/

namespace Verif.Format
open Verif.Syntax

variable {o : Opts}

/-! ## What is known about the entries that are read -/

theorem sig_hole {y y' : Arg} (h : y'.sig = y.sig) : y'.isHole = y.isHole := by
  cases y <;> cases y' <;> simp [Arg.sig] at h <;> rfl

theorem sig_value {y y' : Arg} (h : y'.sig = y.sig) :
    y'.value.map Expr.head = y.value.map Expr.head := by
  cases y <;> cases y' <;> simp [Arg.sig] at h <;> simp [Arg.value, h]

theorem mk_hole {vcx : Cx} {dir : Bool} {p : Entry'} (h : p.1.Simple o) :
    (mkItem o vcx dir p).isHole = p.1.isHole := by
  obtain ⟨y, s⟩ := p
  cases y with
  | hole a =>
    have h : a = {} := h
    subst h
    rfl
  | _ => rfl

/-- The list of the entries that are read. -/
theorem rebuild {vcx : Cx} {dir : Bool} {L : Entry' → Nat → Prop} : (xs : Items) → {ps : List Entry'} →
    All2 (EntRe o vcx dir L) xs.entries ps →
    ∃ ys : Items, ys.entries = ps ∧ ys.Simple o ∧
      ∃ zs, RewItems o vcx.core dir xs zs ∧ zs.bare = ys.bare
  | .nil, ps, h => by
    rw [Items.entries] at h
    rw [h.nil_left]
    exact ⟨.nil, rfl, trivial, .nil, by rw [RewItems], rfl⟩
  | .last y, ps, h => by
    rw [Items.entries] at h
    obtain ⟨p', ps', rfl, h1, h2⟩ := h.cons_left
    rw [h2.nil_left]
    obtain ⟨y', q⟩ := p'
    have hq := h1.sep
    cases q with
    | some q => cases hq
    | none =>
      obtain ⟨z, hz, hz2⟩ := h1.rew
      exact ⟨.last y', rfl, h1.simple, .last z, by rw [RewItems]; exact ⟨z, hz, rfl⟩,
        by simp only [Items.bare, hz2]⟩
  | .cons y s xs, ps, h => by
    rw [Items.entries] at h
    obtain ⟨p', ps', rfl, h1, h2⟩ := h.cons_left
    obtain ⟨ys, rfl, hs, zs, hr, hb⟩ := rebuild xs h2
    obtain ⟨y', q⟩ := p'
    have hq := h1.sep
    have hpl := h1.plain
    cases q with
    | none => cases hq
    | some q =>
      obtain ⟨z, hz, hz2⟩ := h1.rew
      refine ⟨.cons y' q ys, rfl, ⟨h1.simple, hpl q rfl, hs⟩, .cons z s zs, ?_, ?_⟩
      · rw [RewItems]; exact ⟨z, zs, hz, hr, rfl⟩
      · simp only [Option.map_some, Option.some.injEq] at hq
        simp only [Items.bare, hz2, hb, bareTok, hq]

theorem args_entries : (xs : Items) → xs.args = xs.entries.map Prod.fst
  | .nil => rfl
  | .last _ => rfl
  | .cons y s xs => by simp only [Items.args, Items.entries, List.map, args_entries xs]

theorem simple_entries : (xs : Items) → xs.Simple o → ∀ p ∈ xs.entries, p.1.Simple o
  | .nil, _ => by simp [Items.entries]
  | .last y, h => by
    simp only [Items.entries, List.mem_singleton]
    rintro p rfl
    exact h
  | .cons y s xs, h => by
    simp only [Items.entries, List.mem_cons]
    rintro p (rfl | hp)
    · exact h.1
    · exact simple_entries xs h.2.2 p hp

theorem All2.getLast {α β : Type} {R : α → β → Prop} : {as : List α} → {bs : List β} →
    All2 R as bs → (as.getLast? = none ∧ bs.getLast? = none) ∨
      ∃ a b, as.getLast? = some a ∧ bs.getLast? = some b ∧ R a b
  | [], [], _ => .inl ⟨rfl, rfl⟩
  | [a], [b], h => .inr ⟨a, b, rfl, rfl, h.1⟩
  | a :: c :: as, b :: d :: bs, h => by
    have := All2.getLast (as := c :: as) (bs := d :: bs) h.2
    simpa [List.getLast?_cons_cons] using this
  | [], _ :: _, h => h.elim
  | _ :: _, [], h => h.elim
  | [_], _ :: _ :: _, h => h.2.elim
  | _ :: _ :: _, [_], h => h.2.elim

theorem nameAnn_nil {y : Arg} (h : y.Simple o) : y.nameAnn = {} := by
  cases y with
  | name a na n q => exact h.2.1
  | named a na n q e => exact h.2.1
  | _ => rfl

theorem groupLast_same {vcx : Cx} {dir : Bool} {L : Entry' → Nat → Prop} {xs ys : Items}
    (hx : xs.Simple o) (hy : ys.Simple o) (h : All2 (EntRe o vcx dir L) xs.entries ys.entries) :
    groupLast ys = groupLast xs := by
  unfold groupLast
  rw [args_entries, args_entries, List.getLast?_map, List.getLast?_map]
  rcases h.getLast with ⟨e1, e2⟩ | ⟨p, p', e1, e2, hE⟩
  · rw [e1, e2]
  · rw [e1, e2]
    have h1 := simple_entries xs hx p (List.mem_of_getLast? e1)
    have h2 := simple_entries ys hy p' (List.mem_of_getLast? e2)
    have hv := sig_value hE.sig
    simp only [Option.map_some, h1.ann, h2.ann, nameAnn_nil h1, nameAnn_nil h2]
    cases v1 : p.1.value <;> cases v2 : p'.1.value <;> simp [v1, v2] at hv ⊢
    rw [(head_eq hv).2.2.2.2.2.2.2.2.1]

/-- The last argument can be grouped: it has a value. -/
theorem groupLast_last {xs : Items} (h : groupLast xs = true) :
    ∃ p, xs.entries.getLast? = some p ∧ p.1.isHole = false := by
  unfold groupLast at h
  rw [args_entries, List.getLast?_map] at h
  cases e1 : xs.entries.getLast? with
  | none => rw [e1] at h; cases h
  | some p =>
    rw [e1] at h
    refine ⟨p, rfl, ?_⟩
    obtain ⟨y, s⟩ := p
    cases y <;> simp [Arg.value] at h ⊢ <;> rfl

theorem isTestCall_eq (xs : Items) : isTestCall xs = (match xs.entries.map Prod.fst with
    | [x, y] => (x.value.map Expr.isStr == some true) && (y.value.map Expr.isBraced == some true)
    | _ => false) := by
  unfold isTestCall
  rw [args_entries]
  split
  · rename_i x y h
    rw [h]
    simp only
    congr 1
    · cases x.value with
      | none => rfl
      | some e => cases e <;> rfl
    · cases y.value with
      | none => rfl
      | some e => cases e <;> rfl
  · rename_i h
    split
    · rename_i x y hh
      exact absurd hh (h x y)
    · rfl

theorem isTestCall_same {vcx : Cx} {dir : Bool} {L : Entry' → Nat → Prop} {xs ys : Items}
    (h : All2 (EntRe o vcx dir L) xs.entries ys.entries) : isTestCall ys = isTestCall xs := by
  have hv : ∀ {y y' : Arg}, y'.sig = y.sig →
      y'.value.map Expr.isStr = y.value.map Expr.isStr ∧
      y'.value.map Expr.isBraced = y.value.map Expr.isBraced := by
    intro y y' h
    have hv := sig_value h
    cases v1 : y.value <;> cases v2 : y'.value <;> simp [v1, v2] at hv ⊢
    exact ⟨(head_eq hv).2.2.2.2.2.1, (head_eq hv).1⟩
  rw [isTestCall_eq, isTestCall_eq]
  generalize xs.entries = as at h ⊢
  generalize ys.entries = bs at h ⊢
  match as, bs, h with
  | [], [], _ => rfl
  | [_], [_], _ => rfl
  | [a, b], [c, d], h =>
    simp only [List.map]
    rw [(hv h.1.sig).1, (hv h.2.1.sig).2]
  | _ :: _ :: _ :: _, _ :: _ :: _ :: _, _ => rfl
  | [], _ :: _, h => exact h.elim
  | _ :: _, [], h => exact h.elim
  | [_], _ :: _ :: _, h => exact h.2.elim
  | _ :: _ :: _, [_], h => exact h.2.elim
  | [_, _], _ :: _ :: _ :: _, h => exact h.2.2.elim
  | _ :: _ :: _ :: _, [_, _], h => exact h.2.2.elim

theorem plain_direct {ts : List Token} (h : AllPlain ts) : commentsDirect ts = false := by
  unfold commentsDirect
  cases h1 : ts.head? with
  | none =>
    cases ts with
    | nil => rfl
    | cons t ts => cases h1
  | some t =>
    have h2 := (h t (List.mem_of_head? h1)).1
    cases h3 : ts.getLast? with
    | none => simp [h2]
    | some u => simp [h2, (h u (List.mem_of_getLast? h3)).2]

theorem hugging_eq {vcx : Cx} {dir : Bool} {r : Token} {ps : List Entry'} (hr : Bland r)
    (hs : ∀ p ∈ ps, p.1.Simple o) : hugging r (ps.map (mkItem o vcx dir)) =
    (match ps with
     | [p] => p.1.sig.1 == 1 && (p.1.value.map Expr.isCall == some true)
     | _ => false) := by
  match ps with
  | [] => rfl
  | _ :: _ :: _ => rfl
  | [(y, s)] =>
    have h := hs (y, s) (by simp)
    cases y with
    | val a e =>
      have h1 := (Expr.Simple.ok e h.2).2.2.1
      simp only [List.map, hugging, mkItem, plain_direct h1, hr.1]
      cases e <;> rfl
    | _ => rfl

theorem hugging_same {vcx : Cx} {dir : Bool} {r r' : Token} {ps ps' : List Entry'} {L : Entry' → Nat → Prop}
    (hr : Bland r) (hr' : Bland r') (hs : ∀ p ∈ ps, p.1.Simple o)
    (h : All2 (EntRe o vcx dir L) ps ps') :
    hugging r' (ps'.map (mkItem o vcx dir)) = hugging r (ps.map (mkItem o vcx dir)) := by
  have hs' : ∀ p ∈ ps', p.1.Simple o := fun p hp => by
    obtain ⟨q, -, hq⟩ := h.mem_right p hp
    exact hq.simple
  rw [hugging_eq hr hs, hugging_eq hr' hs']
  match ps, ps', h with
  | [], [], _ => rfl
  | [a], [b], h =>
    have hv := sig_value h.1.sig
    simp only
    rw [h.1.sig]
    congr 2
    cases v1 : a.1.value <;> cases v2 : b.1.value <;> simp [v1, v2] at hv ⊢
    exact (head_eq hv).2.2.2.2.1
  | _ :: _ :: _, _ :: _ :: _, _ => rfl
  | [], _ :: _, h => exact h.elim
  | _ :: _, [], h => exact h.elim
  | [_], _ :: _ :: _, h => exact h.2.elim
  | _ :: _ :: _, [_], h => exact h.2.elim

theorem takeWhile_split {α : Type} {f : α → Bool} : {as bs : List α} → (∀ a ∈ as, f a = true) →
    (∀ b ∈ bs.head?, f b = false) → (as ++ bs).takeWhile f = as ∧ (as ++ bs).dropWhile f = bs
  | [], [], _, _ => ⟨rfl, rfl⟩
  | [], b :: bs, _, h => by
    have := h b rfl
    simp [List.takeWhile_cons, List.dropWhile_cons, this]
  | a :: as, bs, h, h' => by
    have := takeWhile_split (as := as) (fun a ha => h a (by simp [ha])) h'
    simp [List.takeWhile_cons, List.dropWhile_cons, h a (by simp), this]

/-- Leading holes and the other arguments. -/
theorem split_items {vcx : Cx} {dir : Bool} {H A : List Entry'} (hs : ∀ p ∈ H ++ A, p.1.Simple o)
    (hH : ∀ p ∈ H, p.1.isHole = true) (hA : ∀ p ∈ A.head?, p.1.isHole = false) :
    ((H ++ A).map (mkItem o vcx dir)).takeWhile ItemDoc.isHole = H.map (mkItem o vcx dir) ∧
    ((H ++ A).map (mkItem o vcx dir)).dropWhile ItemDoc.isHole = A.map (mkItem o vcx dir) := by
  rw [List.map_append]
  refine takeWhile_split ?_ ?_
  · intro d hd
    obtain ⟨p, hp, rfl⟩ := List.mem_map.1 hd
    rw [mk_hole (hs p (by simp [hp]))]
    exact hH p hp
  · intro d hd
    cases A with
    | nil => cases hd
    | cons p A =>
      cases hd
      rw [mk_hole (hs p (by simp))]
      exact hA p rfl

theorem holes_apart (en : List Entry') : ∃ H A : List Entry', en = H ++ A ∧
    (∀ p ∈ H, p.1.isHole = true) ∧ (∀ p ∈ A.head?, p.1.isHole = false) := by
  induction en with
  | nil => exact ⟨[], [], rfl, by simp, by simp⟩
  | cons p en ih =>
    by_cases hp : p.1.isHole = true
    · obtain ⟨H, A, rfl, h1, h2⟩ := ih
      exact ⟨p :: H, A, rfl, by simpa [hp] using h1, h2⟩
    · refine ⟨[], p :: en, rfl, by simp, ?_⟩
      rintro q ⟨⟩
      simpa using hp

/-! ## Grouped arguments -/

section
variable {vcx : Cx} {dir : Bool} {m : PMode} {i : Nat} {x : List El} {s s' : W} {ts ts' : List Token}

theorem holes_refines {ps ps' : List Entry'} {L : Entry' → Nat → Prop}
    (h : All2 (EntRe o vcx dir L) ps ps') :
    Refines (catAll ((ps'.map (mkItem o vcx dir)).map ItemDoc.full))
      (catAll ((ps.map (mkItem o vcx dir)).map ItemDoc.full)) := by
  induction ps generalizing ps' with
  | nil => rw [h.nil_left]; exact .refl _
  | cons p ps ih =>
    obtain ⟨p', ps', rfl, h1, h2⟩ := h.cons_left
    have hs : (mkItem o vcx dir p').sepDoc = (mkItem o vcx dir p).sepDoc := same_sep h1.sep
    simp only [List.map, catAll]
    refine Refines.cat ?_ (ih h2)
    unfold ItemDoc.full
    rw [hs]
    exact h1.doc.cat (.refl _)

theorem seps_length {p : Entry'} {ps : List Entry'} : (p :: ps).length = 1 ↔ ps = [] := by
  cases ps <;> simp

theorem grouped_step {ex single : Bool} {ps : List Entry'} :
    ∀ {x : List El} {s : W} {ts : List Token} {s' : W} {ts' : List Token},
    (∀ p ∈ ps, CoreA o p.1 ∧ p.1.Simple o) → ArgCx vcx → seps ps → s.n ≤ 1 → AllPlain ts →
    Step m i (groupedJoin ex single (ps.map (mkItem o vcx dir))) x s ts s' ts' →
    ∃ ps', All2 (EntRe o vcx dir (fun _ n => n ≤ 1)) ps ps' ∧
      (∀ p ∈ ps.head?, ∀ p' ∈ ps'.head?, linesBefore p'.1.tokens = if p.1.isHole then 0 else s.n) ∧
      ts = entToks ps' ++ ts' ∧
      Prints m i (groupedJoin ex single (ps'.map (mkItem o vcx dir))) x ∧
      (m = .bare → (groupedJoin ex single (ps'.map (mkItem o vcx dir))).willBreak = false) ∧
      (∀ ex2, Refines (groupedJoin ex2 single (ps'.map (mkItem o vcx dir)))
        (groupedJoin ex2 single (ps.map (mkItem o vcx dir)))) := by
  induction ps with
  | nil =>
    intro x s ts s' ts' hc hv hsp hn hp h
    obtain ⟨rfl, h2, h3⟩ := Step.nil h
    exact ⟨[], trivial, by simp, by simp [entToks, h3], h.prints, h.calm, fun _ => .refl _⟩
  | cons p ps ih =>
    intro x s ts s' ts' hc hv hsp hn hp h
    cases ps with
    | nil =>
      have hg : ∀ ex2 (q : Entry'), groupedJoin ex2 single ([q].map (mkItem o vcx dir)) =
          if ex2 then .group true (argD o vcx dir (!single) q.1 ⊹ (mkItem o vcx dir q).sepDoc)
          else argD o vcx dir (!single) q.1 ⊹ (mkItem o vcx dir q).sepDoc := by
        intro ex2 q
        simp only [List.map, groupedJoin]
        cases single <;> rfl
      rw [hg] at h
      have key : ∀ m', (m' = .bare → m = .bare) →
          Step m' i (argD o vcx dir (!single) p.1 ⊹ (mkItem o vcx dir p).sepDoc) x s ts s' ts' →
          ∃ p', EntRe o vcx dir (fun p n => n = if p.1.isHole then 0 else s.n) p p' ∧
            ts = entToks [p'] ++ ts' ∧
            Prints m' i (argD o vcx dir (!single) p'.1 ⊹ (mkItem o vcx dir p').sepDoc) x ∧
            (m' = .bare → (argD o vcx dir (!single) p'.1 ⊹ (mkItem o vcx dir p').sepDoc).willBreak = false) ∧
            Refines (argD o vcx dir (!single) p'.1 ⊹ (mkItem o vcx dir p').sepDoc)
              (argD o vcx dir (!single) p.1 ⊹ (mkItem o vcx dir p).sepDoc) := by
        intro m' hm' h
        obtain ⟨-, p', h2, h3, h4, h5, h6, h7⟩ := entry_step (!single) (hc p (by simp)).1 (hc p (by simp)).2 hv hp h
        refine ⟨p', h2, ?_, h5, h6, ?_⟩
        · rw [h4, entToks_cons]; simp [entToks]
        · rw [same_sep h2.sep]
          exact (h7 (!single) (fun hb => .inr hb)).cat (.refl _)
      have hL : ∀ n, (n = if p.1.isHole then 0 else s.n) → n ≤ 1 := by
        intro n h; rw [h]; split <;> omega
      cases ex with
      | false =>
        obtain ⟨p', h2, h3, h4, h5, h6⟩ := key m (fun h => h) h
        refine ⟨[p'], ⟨h2.weaken hL, trivial⟩, ?_, h3, ?_, ?_, ?_⟩
        · simp only [List.head?_cons, Option.mem_def, Option.some.injEq]
          rintro _ rfl _ rfl
          exact h2.lines
        · rw [hg]; exact h4
        · rw [hg]; exact h5
        · intro ex2
          rw [hg, hg]
          cases ex2 with
          | false => exact h6
          | true => exact h6.group (fun h => h)
      | true =>
        obtain ⟨m', hm, hb, hs⟩ := Step.group h
        obtain ⟨p', h2, h3, h4, h5, h6⟩ := key m' hm.bare hs
        refine ⟨[p'], ⟨h2.weaken hL, trivial⟩, ?_, h3, ?_, ?_, ?_⟩
        · simp only [List.head?_cons, Option.mem_def, Option.some.injEq]
          rintro _ rfl _ rfl
          exact h2.lines
        · rw [hg]; exact ⟨m', hm, h4⟩
        · intro h; have := hb h; cases this
        · intro ex2
          rw [hg, hg]
          cases ex2 with
          | false => exact h6
          | true => exact h6.group (fun h => h)
    | cons q ps =>
      obtain ⟨x1, x2, s1, ts1, rfl, h1, h2⟩ := Step.cat h
      obtain ⟨x3, x4, s2, ts2, rfl, h3, h4⟩ := h2.cat
      obtain ⟨hs1, p', hE, -, ht2, hA⟩ := full_step (hc p (by simp)).1 (hc p (by simp)).2 hv hp h1
      rw [after_tok hsp (by simp)] at hs1
      subst hs1
      have hp' := hp
      rw [ht2] at hp'
      obtain ⟨hl1, hl2, hl3⟩ := h3.line
      rw [hl2] at h4
      have hs2 : s2.n ≤ 1 := by
        rw [hl1]
        simp only [W.line]
        split <;> decide
      obtain ⟨ps', hps, hhd, ht3, hpr, hcl, href⟩ := ih (fun q hq => hc q (by simp [hq])) hv (seps_tail hsp)
        hs2 hp'.append.2.append.2 h4
      obtain ⟨q', qs', rfl, h5, h6⟩ := hps.cons_left
      refine ⟨p' :: q' :: qs', ⟨hE.weaken ?_, hps⟩, ?_, ?_, ?_, ?_, ?_⟩
      · intro n h; rw [h]; split <;> omega
      · simp only [List.head?_cons, Option.mem_def, Option.some.injEq]
        rintro _ rfl _ rfl
        exact hE.lines
      · rw [ht2, ht3, entToks_cons p']
        simp
      · exact ⟨x1, x3 ++ x4, rfl, hA.prints, x3, x4, rfl, h3.prints, hpr⟩
      · intro hm
        have e1 := hA.calm hm
        have e2 := hcl hm
        simp only [List.map, groupedJoin, Doc.willBreak] at e1 e2 ⊢
        rw [e1, e2]
        rfl
      · intro ex2
        exact hA.refines.cat ((Refines.refl _).cat (href ex2))

end

/-! ## Parameters of functions that are grouped -/

theorem fmts_cx {cx cx' : Cx} (h : cx'.inArg = cx.inArg) (top : Bool) : (first : Bool) → (es : Exprs) →
    fmtExprs o cx' top first es = fmtExprs o cx top first es
  | _, .nil => rfl
  | first, .cons e es => by simp only [fmtExprs, h, fmts_cx h top false es]

/-- Only function definitions look at `flatParams`. -/
theorem fmt_flat (cx : Cx) (b : Bool) {e : Expr} (h : ∀ a kw pa l items r b, e ≠ .func a kw pa l items r b) :
    fmt o { cx with flatParams := b } e = fmt o cx e := by
  cases e with
  | func a kw pa l items r b => exact absurd rfl (h a kw pa l items r b)
  | braced a l es r =>
    rw [fmt, fmt, fmts_cx (cx := cx) (cx' := { cx with flatParams := b }) rfl]
    rfl
  | _ => rfl

theorem flat_fmt {e : Expr} (h : e.Simple o) (cx : Cx) {i : Nat} {x : List El}
    (hx : Prints .bare i (fmt o { cx with flatParams := false } e) x) (hi : x.all El.isInline = true)
    (hw : (fmt o { cx with flatParams := true } e).willBreak = false) :
    Prints .bare i (fmt o { cx with flatParams := true } e) x := by
  cases e with
  | func a kw pa l items r b =>
    rw [fmt] at hx hw ⊢
    rw [(same_wrap h _).prints] at hx ⊢
    rw [(same_wrap h _).breaks] at hw
    obtain ⟨m', hm, x1, x23, rfl, h1, x2, x3, rfl, h2, h3⟩ := hx
    refine ⟨m', hm, x1, x2 ++ x3, rfl, h1, x2, x3, rfl, ?_, h3⟩
    have hb := hm.1 rfl
    subst hb
    simp only [Bool.false_eq_true, if_false] at h2
    simp only [List.all_append, Bool.and_eq_true] at hi
    simp only [Doc.willBreak, Bool.or_eq_false_iff, if_true] at hw
    exact ⟨h2, hi.2.1, hw.2.2.1⟩
  | _ =>
    rw [fmt_flat cx _ (by intros; simp)] at hx ⊢
    exact hx

theorem flat_arg {y : Arg} (h : y.Simple o) (vcx : Cx) (dir : Bool) {i : Nat} {x : List El}
    (hx : Prints .bare i (argD o vcx dir false y) x) (hi : x.all El.isInline = true)
    (hw : (argD o vcx dir true y).willBreak = false) :
    Prints .bare i (argD o vcx dir true y) x := by
  unfold argD at *
  rw [(same_arg h dir).prints] at hx ⊢
  rw [(same_arg h dir).breaks] at hw
  cases y with
  | hole a => exact hx
  | val a e => exact flat_fmt h.2 vcx hx hi hw
  | name a na n q => exact hx
  | named a na n q e =>
    obtain ⟨x1, x2, rfl, h1, x3, x4, rfl, h2, h3⟩ := hx
    simp only [List.all_append, Bool.and_eq_true] at hi
    simp only [fmtArg, Doc.willBreak, Bool.or_eq_false_iff] at hw
    exact ⟨x1, x3 ++ x4, rfl, h1, x3, x4, rfl, h2, flat_fmt h.2.2.2.2 vcx h3 hi.2.2 hw.2.2⟩
  | pdef a n da q e =>
    obtain ⟨x1, x2, rfl, h1, x3, x4, rfl, h2, h3⟩ := hx
    obtain ⟨rfl, hn, rfl, hq, he⟩ := h
    have hdn : danglingSoft ({} : Ann).dangling = .nil := rfl
    simp only [List.all_append, Bool.and_eq_true] at hi
    simp only [fmtArg, Doc.willBreak, Bool.or_eq_false_iff, hdn, same_node.breaks] at hw
    rw [hdn, same_node.prints] at h3
    obtain ⟨x5, x6, rfl, h4, x7, x8, rfl, h5, h6⟩ := h3
    simp only [List.all_append, Bool.and_eq_true] at hi
    refine ⟨x1, _, rfl, h1, x3, _, rfl, h2, ?_⟩
    rw [hdn, same_node.prints]
    exact ⟨x5, _, rfl, h4, x7, x8, rfl, h5, flat_fmt he vcx h6 hi.2.2.2.2 hw.2.2.2.2⟩

/-- Without soft line breaks all variants are the same. -/
theorem bare_join {vcx : Cx} {dir single : Bool} {ps : List Entry'} {i : Nat} :
    ∀ {x : List El}, (∀ p ∈ ps, p.1.Simple o) → x.all El.isInline = true →
    (groupedJoin false single (ps.map (mkItem o vcx dir))).willBreak = false →
    (Prints .bare i (groupedJoin true single (ps.map (mkItem o vcx dir))) x ∨
      Prints .bare i (argsJoin (ps.map (mkItem o vcx dir))) x) →
    Prints .bare i (groupedJoin false single (ps.map (mkItem o vcx dir))) x := by
  induction ps with
  | nil => intro x _ _ _ h; exact h.elim id id
  | cons p ps ih =>
    intro x hs hi hw hx
    cases ps with
    | nil =>
      rcases hx with hx | hx
      · obtain ⟨m', hm, hx⟩ := hx
        rw [hm.1 rfl] at hx
        exact hx
      · obtain ⟨x1, x2, rfl, ⟨x3, x4, rfl, h1, h2⟩, h3⟩ := hx
        have h3 : x2 = [] := h3
        subst h3
        simp only [List.all_append, Bool.and_eq_true] at hi
        simp only [List.map, groupedJoin, Bool.false_eq_true, if_false, Doc.willBreak,
          Bool.or_eq_false_iff] at hw ⊢
        simp only [List.append_nil]
        refine ⟨x3, x4, rfl, ?_, h2⟩
        cases single with
        | true => exact h1
        | false => exact flat_arg (hs p (by simp)) vcx dir h1 hi.1.1 hw.1
    | cons q ps =>
      simp only [List.map, groupedJoin, Doc.willBreak, Bool.or_eq_false_iff] at hw
      rcases hx with hx | hx
      · obtain ⟨x1, x2, rfl, h1, x3, x4, rfl, h2, h3⟩ := hx
        simp only [List.all_append, Bool.and_eq_true] at hi
        exact ⟨x1, _, rfl, h1, x3, x4, rfl, h2,
          ih (fun p hp => hs p (by simp [hp])) hi.2.2 hw.2.2 (.inl h3)⟩
      · obtain ⟨x1, x2, rfl, h1, x3, x4, rfl, h2, h3⟩ := hx
        simp only [List.all_append, Bool.and_eq_true] at hi
        refine ⟨x1, _, rfl, h1, x3, x4, rfl, ?_,
          ih (fun p hp => hs p (by simp [hp])) hi.2.2 hw.2.2 (.inr h3)⟩
        have h2 : x3 = lineEls .bare i (if (mkItem o vcx dir q).lines ≤ 1 then .softOrSpace else .empty) := h2
        split at h2
        · exact h2
        · rw [h2] at hi
          exact absurd hi.2.1 (by simp [lineEls, El.isInline])

end Verif.Format
