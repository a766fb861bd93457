import Verif.Lemmas.StableHead
import Verif.Lemmas.FormatSkip

/-!
# Arguments and parameters in a formatted text
-/

namespace Verif.Format
open Verif.Syntax

variable {o : Opts}

/-- A line break before the right operand `r'` that was printed for `r` in mode `m`. -/
def Broke (m : PMode) (r r' : Expr) : Prop :=
  (leadingNewline r'.tokens = true → m = .expanded ∨ leadingNewline r.tokens = true) ∧
  (m = .expanded → leadingNewline r'.tokens = true)

/-- `e'` is read where `x` was printed for `e`, and `x` can be printed for `e'` as well. -/
structure ReE (o : Opts) (cx : Cx) (m : PMode) (i : Nat) (e : Expr) (x : List El) (s : W)
    (ts ts' : List Token) (e' : Expr) : Prop where
  toks : ts = e'.tokens ++ ts'
  lines : linesBefore e'.tokens = s.n
  simple : e'.Simple o
  head : e'.head = e.head
  rew : ∃ e'', Rew o cx.core e e'' ∧ e''.bare = e'.bare
  prints : Prints m i (fmt o cx e') x
  calm : m = .bare → (fmt o cx e').willBreak = false
  refines : ∀ b, (b = true → m = .bare ∨ cx.flatParams = true) →
    Refines (fmt o { cx with flatParams := b } e') (fmt o { cx with flatParams := b } e)
  chain : cx.chain = true → ∀ r r', Broke m r r' → Broke m (firstRight e r) (firstRight e' r')

def AllPlain (ts : List Token) : Prop := ∀ t ∈ ts, Bland t

theorem AllPlain.append {a b : List Token} (h : AllPlain (a ++ b)) : AllPlain a ∧ AllPlain b :=
  ⟨fun t ht => h t (by simp [ht]), fun t ht => h t (by simp [ht])⟩

theorem AllPlain.cons {a : Token} {b : List Token} (h : AllPlain (a :: b)) : Bland a ∧ AllPlain b :=
  ⟨h a (by simp), fun t ht => h t (by simp [ht])⟩

def CoreE (o : Opts) (e : Expr) : Prop :=
  ∀ cx m i x s ts s' ts', e.Simple o → cx.table = none → cx.braces ≠ some false → AllPlain ts →
    Step m i (fmt o cx e) x s ts s' ts' → s' = .tok ∧ ∃ e', ReE o cx m i e x s ts ts' e'

/-! ## Arguments -/

/-- The document of an argument. -/
def argD (o : Opts) (vcx : Cx) (dir b : Bool) (y : Arg) : Doc :=
  argDoc o dir y (fmtArg o { vcx with flatParams := b } y)

/-- What the rules look at in an argument. -/
def Arg.sig : Arg → Nat × Option Head
  | .hole _ => (0, none)
  | .val _ e => (1, some e.head)
  | .name .. => (2, none)
  | .named _ _ _ _ e => (3, some e.head)
  | .pdef _ _ _ _ e => (4, some e.head)

structure ReA (o : Opts) (vcx : Cx) (dir b0 : Bool) (m : PMode) (i : Nat) (y : Arg) (x : List El) (s : W)
    (ts ts' : List Token) (y' : Arg) : Prop where
  toks : ts = y'.tokens ++ ts'
  lines : linesBefore y'.tokens = if y.isHole then 0 else s.n
  simple : y'.Simple o
  sig : y'.sig = y.sig
  rew : ∃ y'', RewArg o vcx.core dir y y'' ∧ y''.bare = y'.bare
  prints : Prints m i (argD o vcx dir b0 y') x
  calm : m = .bare → (argD o vcx dir b0 y').willBreak = false
  refines : ∀ b, (b = true → m = .bare ∨ b0 = true) → Refines (argD o vcx dir b y') (argD o vcx dir b y)

/-- Contexts of arguments and parameters. -/
structure ArgCx (vcx : Cx) : Prop where
  table : vcx.table = none
  chain : vcx.chain = false
  braces : vcx.braces = none
  flat : vcx.flatParams = false

def CoreA (o : Opts) (y : Arg) : Prop :=
  ∀ vcx dir b0 m i x s ts s' ts', y.Simple o → ArgCx vcx → AllPlain ts →
    Step m i (argD o vcx dir b0 y) x s ts s' ts' →
    s' = (if y.isHole then s else .tok) ∧ ∃ y', ReA o vcx dir b0 m i y x s ts ts' y'

/-! ## Entries -/

abbrev Entry' := Arg × Option Token

def mkItem (o : Opts) (vcx : Cx) (dir : Bool) (p : Entry') : ItemDoc :=
  ⟨p.1, p.2, argD o vcx dir false p.1, argD o vcx dir true p.1, fmtArg o { vcx with flatParams := false } p.1⟩

theorem noFlat {vcx : Cx} (h : vcx.flatParams = false) : { vcx with flatParams := false } = vcx := by
  cases vcx; simp_all

theorem fmtItems_map {vcx : Cx} (h : vcx.flatParams = false) (dir : Bool) : (xs : Items) →
    fmtItems o vcx dir xs = xs.entries.map (mkItem o vcx dir)
  | .nil => rfl
  | .last y => by simp only [fmtItems, Items.entries, List.map, mkItem, argD, noFlat h]
  | .cons y s xs => by
    simp only [fmtItems, Items.entries, List.map, mkItem, argD, noFlat h, fmtItems_map h dir xs]

/-- Two lists of the same length with related elements. -/
def All2 {α β : Type} (R : α → β → Prop) : List α → List β → Prop
  | [], [] => True
  | a :: as, b :: bs => R a b ∧ All2 R as bs
  | _, _ => False

theorem All2.imp {α β : Type} {R S : α → β → Prop} (h : ∀ a b, R a b → S a b) : {as : List α} → {bs : List β} →
    All2 R as bs → All2 S as bs
  | [], [], _ => trivial
  | _ :: _, _ :: _, ⟨h1, h2⟩ => ⟨h _ _ h1, All2.imp h h2⟩

theorem All2.append {α β : Type} {R : α → β → Prop} : {as cs : List α} → {bs ds : List β} →
    All2 R as bs → All2 R cs ds → All2 R (as ++ cs) (bs ++ ds)
  | [], _, [], _, _, h => h
  | _ :: _, _, _ :: _, _, ⟨h1, h2⟩, h => ⟨h1, All2.append h2 h⟩

theorem All2.nil_left {α β : Type} {R : α → β → Prop} {bs : List β} (h : All2 R ([] : List α) bs) : bs = [] := by
  cases bs with
  | nil => rfl
  | cons b bs => exact h.elim

theorem All2.cons_left {α β : Type} {R : α → β → Prop} {a : α} {as : List α} {bs : List β}
    (h : All2 R (a :: as) bs) : ∃ b bs', bs = b :: bs' ∧ R a b ∧ All2 R as bs' := by
  cases bs with
  | nil => exact h.elim
  | cons b bs => exact ⟨b, bs, rfl, h.1, h.2⟩

theorem All2.mem_right {α β : Type} {R : α → β → Prop} : {as : List α} → {bs : List β} →
    All2 R as bs → ∀ b ∈ bs, ∃ a ∈ as, R a b
  | [], [], _, b, hb => by cases hb
  | a :: as, c :: bs, ⟨h1, h2⟩, b, hb => by
    rcases List.mem_cons.1 hb with rfl | hb
    · exact ⟨a, by simp, h1⟩
    · obtain ⟨a', ha, hr⟩ := All2.mem_right h2 b hb
      exact ⟨a', by simp [ha], hr⟩

theorem All2.mem_left {α β : Type} {R : α → β → Prop} : {as : List α} → {bs : List β} →
    All2 R as bs → ∀ a ∈ as, ∃ b ∈ bs, R a b
  | [], [], _, b, hb => by cases hb
  | a :: as, c :: bs, ⟨h1, h2⟩, b, hb => by
    rcases List.mem_cons.1 hb with rfl | hb
    · exact ⟨c, by simp, h1⟩
    · obtain ⟨a', ha, hr⟩ := All2.mem_left h2 b hb
      exact ⟨a', by simp [ha], hr⟩

theorem All2.length {α β : Type} {R : α → β → Prop} : {as : List α} → {bs : List β} →
    All2 R as bs → bs.length = as.length
  | [], [], _ => rfl
  | _ :: _, _ :: _, ⟨_, h2⟩ => by simp [All2.length h2]

/-- The entry `p'` is read where `p` was printed; `L`: what is known about the line breaks before it. -/
structure EntRe (o : Opts) (vcx : Cx) (dir : Bool) (L : Entry' → Nat → Prop) (p p' : Entry') : Prop where
  simple : p'.1.Simple o
  sig : p'.1.sig = p.1.sig
  rew : ∃ y'', RewArg o vcx.core dir p.1 y'' ∧ y''.bare = p'.1.bare
  sep : p'.2.map outTok = p.2.map outTok
  plain : ∀ t ∈ p'.2, Bland t
  lines : L p (linesBefore p'.1.tokens)
  doc : Refines (argD o vcx dir false p'.1) (argD o vcx dir false p.1)

theorem EntRe.weaken {vcx : Cx} {dir : Bool} {L L' : Entry' → Nat → Prop} {p p' : Entry'}
    (h : EntRe o vcx dir L p p') (hl : ∀ n, L p n → L' p n) : EntRe o vcx dir L' p p' :=
  ⟨h.simple, h.sig, h.rew, h.sep, h.plain, hl _ h.lines, h.doc⟩

/-- The tokens of entries. -/
def entToks (ps : List Entry') : List Token := ps.flatMap (fun p => p.1.tokens ++ p.2.toList)

theorem entToks_cons (p : Entry') (ps : List Entry') :
    entToks (p :: ps) = p.1.tokens ++ (p.2.toList ++ entToks ps) := by
  simp [entToks, List.append_assoc]

theorem entToks_append (ps qs : List Entry') : entToks (ps ++ qs) = entToks ps ++ entToks qs := by
  simp [entToks]

theorem entries_toks : (xs : Items) → entToks xs.entries = xs.tokens
  | .nil => rfl
  | .last y => by simp [Items.entries, Items.tokens, entToks]
  | .cons y s xs => by
    rw [Items.entries, entToks_cons, Items.tokens, entries_toks xs]; rfl

/-- All entries but the last have separators. -/
def seps : List Entry' → Prop
  | [] => True
  | [_] => True
  | p :: q :: ps => p.2.isSome = true ∧ seps (q :: ps)

theorem seps_tail {p : Entry'} {ps : List Entry'} (h : seps (p :: ps)) : seps ps := by
  cases ps with
  | nil => trivial
  | cons q ps => exact h.2

theorem seps_drop {ps qs : List Entry'} (h : seps (ps ++ qs)) : seps qs := by
  induction ps with
  | nil => exact h
  | cons p ps ih => exact ih (seps_tail h)

theorem seps_head {p : Entry'} {ps : List Entry'} (h : seps (p :: ps)) (hn : ps ≠ []) : p.2.isSome = true := by
  cases ps with
  | nil => exact absurd rfl hn
  | cons q ps => exact h.1

theorem seps_take {ps qs : List Entry'} (h : seps (ps ++ qs)) : seps ps := by
  induction ps with
  | nil => trivial
  | cons p ps ih =>
    cases ps with
    | nil => trivial
    | cons q ps => exact ⟨h.1, ih h.2⟩

theorem seps_entries : (xs : Items) → seps xs.entries
  | .nil => trivial
  | .last _ => trivial
  | .cons y s xs => by
    have h := seps_entries xs
    rw [Items.entries]
    cases hx : xs.entries with
    | nil => trivial
    | cons q ps => rw [hx] at h; exact ⟨rfl, h⟩

section
variable {vcx : Cx} {dir : Bool} {m : PMode} {i : Nat} {x : List El} {s s' : W} {ts ts' : List Token}

theorem same_sep {p p' : Entry'} (h : p'.2.map outTok = p.2.map outTok) :
    (mkItem o vcx dir p').sepDoc = (mkItem o vcx dir p).sepDoc := by
  unfold ItemDoc.sepDoc mkItem
  dsimp only
  cases h1 : p.2 <;> cases h2 : p'.2 <;> simp_all [tokDoc]

/-- The state after an entry. -/
def afterEntry (s : W) (p : Entry') : W := if p.1.isHole && p.2.isNone then s else .tok

theorem sep_step {p : Entry'} (hp : AllPlain ts)
    (h : Step m i (mkItem o vcx dir p).sepDoc x s ts s' ts') :
    s' = (if p.2.isNone then s else .tok) ∧ ∃ q : Option Token, q.map outTok = p.2.map outTok ∧
      (∀ t ∈ q, Bland t ∧ linesBeforeToken t = s.n) ∧ ts = q.toList ++ ts' := by
  unfold ItemDoc.sepDoc mkItem at h
  dsimp only at h
  cases h1 : p.2 with
  | none =>
    rw [h1] at h
    obtain ⟨-, h2, h3⟩ := h.nil
    exact ⟨h2, none, rfl, by simp, by simpa using h3.symm⟩
  | some t =>
    rw [h1] at h
    obtain ⟨u, e1, e2, e3, e4, -⟩ := h.tokDoc
    refine ⟨e4, some u, by simp [e2], ?_, by simpa using e1⟩
    intro t ht
    cases ht
    rw [e1] at hp
    exact ⟨hp.cons.1, e3⟩

/-- An entry; `b`: printed as grouped argument. -/
theorem entry_step {p : Entry'} (b : Bool) (hc : CoreA o p.1) (hsm : p.1.Simple o) (hv : ArgCx vcx)
    (hp : AllPlain ts) (h : Step m i (argD o vcx dir b p.1 ⊹ (mkItem o vcx dir p).sepDoc) x s ts s' ts') :
    s' = afterEntry s p ∧ ∃ p', EntRe o vcx dir (fun p n => n = if p.1.isHole then 0 else s.n) p p' ∧
      (∀ t ∈ p'.2, linesBeforeToken t = if p.1.isHole then s.n else 0) ∧
      ts = p'.1.tokens ++ (p'.2.toList ++ ts') ∧
      Prints m i (argD o vcx dir b p'.1 ⊹ (mkItem o vcx dir p').sepDoc) x ∧
      (m = .bare → (argD o vcx dir b p'.1 ⊹ (mkItem o vcx dir p').sepDoc).willBreak = false) ∧
      (∀ b1, (b1 = true → m = .bare ∨ b = true) →
        Refines (argD o vcx dir b1 p'.1) (argD o vcx dir b1 p.1)) := by
  obtain ⟨x1, x2, s1, ts1, rfl, h1, h2⟩ := h.cat
  obtain ⟨hs1, y', hy⟩ := hc vcx dir b m i x1 s ts s1 ts1 hsm hv hp h1
  have hp' := hp
  rw [hy.toks] at hp'
  obtain ⟨hs2, q, hq, hq2, hq3⟩ := sep_step hp'.append.2 h2
  refine ⟨?_, (y', q), ⟨hy.simple, hy.sig, hy.rew, hq, fun t ht => (hq2 t ht).1, hy.lines,
    hy.refines false (by simp)⟩, ?_, ?_, ?_, ?_, fun b1 hb => hy.refines b1 hb⟩
  · rw [hs2, hs1]
    unfold afterEntry
    cases p.1.isHole <;> cases p.2 <;> simp
  · intro t ht
    rw [(hq2 t ht).2, hs1]
    split <;> rfl
  · rw [hy.toks, hq3]
  · have : (mkItem o vcx dir (y', q)).sepDoc = (mkItem o vcx dir p).sepDoc := same_sep hq
    rw [this]
    exact ⟨x1, x2, rfl, hy.prints, h2.prints⟩
  · intro hm
    have : (mkItem o vcx dir (y', q)).sepDoc = (mkItem o vcx dir p).sepDoc := same_sep hq
    rw [this]
    simp only [Doc.willBreak, Bool.or_eq_false_iff]
    exact ⟨hy.calm hm, h2.calm hm⟩

/-- An entry that is not grouped. -/
theorem full_step {p : Entry'} (hc : CoreA o p.1) (hsm : p.1.Simple o) (hv : ArgCx vcx)
    (hp : AllPlain ts) (h : Step m i (mkItem o vcx dir p).full x s ts s' ts') :
    s' = afterEntry s p ∧ ∃ p', EntRe o vcx dir (fun p n => n = if p.1.isHole then 0 else s.n) p p' ∧
      (∀ t ∈ p'.2, linesBeforeToken t = if p.1.isHole then s.n else 0) ∧
      ts = p'.1.tokens ++ (p'.2.toList ++ ts') ∧
      Again m i (mkItem o vcx dir p).full (mkItem o vcx dir p').full x := by
  obtain ⟨h1, p', h2, h3, h4, h5, h6, h7⟩ := entry_step false hc hsm hv hp h
  refine ⟨h1, p', h2, h3, h4, h5, h6, ?_⟩
  have hs : (mkItem o vcx dir p').sepDoc = (mkItem o vcx dir p).sepDoc := same_sep h2.sep
  unfold ItemDoc.full
  rw [hs]
  exact h2.doc.cat (.refl _)

/-- The line breaks in front of an argument after a line break in a list. -/
def lineN (m : PMode) (p : Entry') (n : Nat) : Prop :=
  n = if p.1.isHole then 0 else
    if linesBefore p.1.tokens ≤ 1 then (if m = .expanded then 1 else 0) else 2

theorem hole_lines {y : Arg} (h : y.isHole = true) : linesBefore y.tokens = 0 := by
  cases y with
  | hole a => rfl
  | _ => cases h

theorem lineN_le {p : Entry'} {n : Nat} (h : lineN m p n) : n ≤ 1 ↔ linesBefore p.1.tokens ≤ 1 := by
  unfold lineN at h
  by_cases hh : p.1.isHole
  · rw [if_pos hh] at h
    rw [h, hole_lines hh]
  · rw [if_neg hh] at h
    split at h
    · rename_i hl
      split at h <;> simp [h, hl]
    · rename_i hl
      simp [h, hl]

theorem after_tok {p : Entry'} {ps : List Entry'} (h : seps (p :: ps)) (hn : ps ≠ []) (s : W) :
    afterEntry s p = .tok := by
  have := seps_head h hn
  unfold afterEntry
  cases hp : p.2 <;> simp_all

theorem tail_refines {ps ps' : List Entry'}
    (h : All2 (fun p p' => EntRe o vcx dir (fun p n => n ≤ 1 ↔ linesBefore p.1.tokens ≤ 1) p p') ps ps') :
    Refines (argsTail (ps'.map (mkItem o vcx dir))) (argsTail (ps.map (mkItem o vcx dir))) := by
  induction ps generalizing ps' with
  | nil => rw [h.nil_left]; exact .refl _
  | cons p ps ih =>
    obtain ⟨p', ps', rfl, h1, h2⟩ := h.cons_left
    have hs : (mkItem o vcx dir p').sepDoc = (mkItem o vcx dir p).sepDoc := same_sep h1.sep
    have hl : ((mkItem o vcx dir p').lines ≤ 1) = ((mkItem o vcx dir p).lines ≤ 1) := propext h1.lines
    simp only [List.map, argsTail, hl]
    refine (Refines.refl _).cat (Refines.cat ?_ (ih h2))
    unfold ItemDoc.full
    rw [hs]
    exact h1.doc.cat (.refl _)

theorem join_refines {ps ps' : List Entry'} {L : Entry' → Nat → Prop}
    (h1 : All2 (fun p p' => EntRe o vcx dir L p p') ps ps')
    (h : All2 (fun p p' => EntRe o vcx dir (fun p n => n ≤ 1 ↔ linesBefore p.1.tokens ≤ 1) p p')
      ps.tail ps'.tail) :
    Refines (argsJoin (ps'.map (mkItem o vcx dir))) (argsJoin (ps.map (mkItem o vcx dir))) := by
  cases ps with
  | nil => rw [h1.nil_left]; exact .refl _
  | cons p ps =>
    obtain ⟨p', ps', rfl, h2, h3⟩ := h1.cons_left
    have hs : (mkItem o vcx dir p').sepDoc = (mkItem o vcx dir p).sepDoc := same_sep h2.sep
    simp only [List.map, argsJoin]
    refine Refines.cat ?_ (tail_refines h)
    unfold ItemDoc.full
    rw [hs]
    exact h2.doc.cat (.refl _)

theorem tail_step {ps : List Entry'} : ∀ {x : List El} {s : W} {ts : List Token} {s' : W} {ts' : List Token},
    (∀ p ∈ ps, CoreA o p.1 ∧ p.1.Simple o) → ArgCx vcx → seps ps →
    (ps ≠ [] → s = .tok) → AllPlain ts →
    Step m i (argsTail (ps.map (mkItem o vcx dir))) x s ts s' ts' →
    ∃ ps', All2 (EntRe o vcx dir (lineN m)) ps ps' ∧ ts = entToks ps' ++ ts' ∧
      Again m i (argsTail (ps.map (mkItem o vcx dir))) (argsTail (ps'.map (mkItem o vcx dir))) x := by
  induction ps with
  | nil =>
    intro x s ts s' ts' hc hv hsp hs hp h
    obtain ⟨rfl, h2, h3⟩ := Step.nil h
    exact ⟨[], trivial, by simp [entToks, h3], .refl h⟩
  | cons p ps ih =>
    intro x s ts s' ts' hc hv hsp hs hp h
    have hs := hs (by simp)
    subst hs
    obtain ⟨x1, x2, s1, ts1, rfl, h1, h2⟩ := Step.cat h
    obtain ⟨x3, x4, s2, ts2, rfl, h3, h4⟩ := h2.cat
    obtain ⟨hl1, rfl, hl3⟩ := h1.line
    obtain ⟨hs2, p', hE, -, ht2, hA⟩ := full_step (hc p (by simp)).1 (hc p (by simp)).2 hv hp h3
    have hp' := hp
    rw [ht2] at hp'
    obtain ⟨ps', hps, ht3, hA3⟩ := ih (fun q hq => hc q (by simp [hq])) hv (seps_tail hsp)
      (fun hn => by rw [hs2, after_tok hsp hn]) hp'.append.2.append.2 h4
    have hL : lineN m p (linesBefore p'.1.tokens) := by
      have := hE.lines
      unfold lineN
      rw [this]
      split
      · rfl
      · rw [hl1]
        have e : (mkItem o vcx dir p).lines = linesBefore p.1.tokens := rfl
        rw [e]
        split
        · simp only [W.line]
          split <;> rfl
        · rfl
    refine ⟨p' :: ps', ⟨hE.weaken (fun n hn => ?_), hps⟩, ?_, ?_⟩
    · have h5 := hE.lines
      rw [hn, ← h5]
      exact hL
    · rw [ht2, ht3, entToks_cons]
      simp
    · have hl : ((mkItem o vcx dir p').lines ≤ 1) = ((mkItem o vcx dir p).lines ≤ 1) :=
        propext (lineN_le hL)
      have : Again m i (.line (if (mkItem o vcx dir p).lines ≤ 1 then .softOrSpace else .empty))
        (.line (if (mkItem o vcx dir p').lines ≤ 1 then .softOrSpace else .empty)) x1 :=
        .of_eq h1 (by simp only [hl])
      exact this.cat (hA.cat hA3)

theorem join_step {ps : List Entry'} (hc : ∀ p ∈ ps, CoreA o p.1 ∧ p.1.Simple o) (hv : ArgCx vcx)
    (hsp : seps ps) (hp : AllPlain ts) (h : Step m i (argsJoin (ps.map (mkItem o vcx dir))) x s ts s' ts') :
    ∃ ps', All2 (EntRe o vcx dir (fun _ _ => True)) ps ps' ∧
      All2 (EntRe o vcx dir (lineN m)) ps.tail ps'.tail ∧
      (∀ p ∈ ps.head?, ∀ p' ∈ ps'.head?, linesBefore p'.1.tokens = if p.1.isHole then 0 else s.n) ∧
      ts = entToks ps' ++ ts' ∧
      Again m i (argsJoin (ps.map (mkItem o vcx dir))) (argsJoin (ps'.map (mkItem o vcx dir))) x := by
  cases ps with
  | nil =>
    obtain ⟨rfl, h2, h3⟩ := Step.nil h
    exact ⟨[], trivial, trivial, by simp, by simp [entToks, h3], .refl h⟩
  | cons p ps =>
    obtain ⟨x1, x2, s1, ts1, rfl, h1, h2⟩ := Step.cat h
    obtain ⟨hs1, p', hE, -, ht2, hA⟩ := full_step (hc p (by simp)).1 (hc p (by simp)).2 hv hp h1
    have hp' := hp
    rw [ht2] at hp'
    obtain ⟨ps', hps, ht3, hA3⟩ := tail_step (fun q hq => hc q (by simp [hq])) hv (seps_tail hsp)
      (fun hn => by rw [hs1, after_tok hsp hn]) hp'.append.2.append.2 h2
    refine ⟨p' :: ps', ⟨hE.weaken (fun _ _ => trivial), hps.imp (fun a b h => h.weaken (fun _ _ => trivial))⟩,
      hps, ?_, ?_, hA.cat hA3⟩
    · simp only [List.head?_cons, Option.mem_def, Option.some.injEq]
      rintro _ rfl _ rfl
      exact hE.lines
    · rw [ht2, ht3, entToks_cons]
      simp

/-! ## Leading holes -/

theorem holes_step {ps : List Entry'} : ∀ {x : List El} {ts : List Token} {s' : W} {ts' : List Token},
    (∀ p ∈ ps, CoreA o p.1 ∧ p.1.Simple o ∧ p.1.isHole = true) → ArgCx vcx → AllPlain ts →
    Step m i (catAll ((ps.map (mkItem o vcx dir)).map ItemDoc.full)) x .tok ts s' ts' →
    s' = .tok ∧ ∃ ps', All2 (EntRe o vcx dir (fun _ _ => True)) ps ps' ∧
      (∀ p' ∈ ps', ∀ t ∈ p'.2, linesBeforeToken t = 0) ∧ ts = entToks ps' ++ ts' ∧
      Again m i (catAll ((ps.map (mkItem o vcx dir)).map ItemDoc.full))
        (catAll ((ps'.map (mkItem o vcx dir)).map ItemDoc.full)) x := by
  induction ps with
  | nil =>
    intro x ts s' ts' hc hv hp h
    obtain ⟨rfl, h2, h3⟩ := Step.nil h
    exact ⟨h2, [], trivial, by simp, by simp [entToks, h3], .refl h⟩
  | cons p ps ih =>
    intro x ts s' ts' hc hv hp h
    obtain ⟨x1, x2, s1, ts1, rfl, h1, h2⟩ := Step.cat h
    obtain ⟨hs1, p', hE, hln, ht2, hA⟩ := full_step (hc p (by simp)).1 (hc p (by simp)).2.1 hv hp h1
    have hs1 : s1 = .tok := by
      rw [hs1]; unfold afterEntry; split <;> rfl
    subst hs1
    have hp' := hp
    rw [ht2] at hp'
    obtain ⟨hs2, ps', hps, hln2, ht3, hA3⟩ := ih (fun q hq => hc q (by simp [hq])) hv
      hp'.append.2.append.2 h2
    refine ⟨hs2, p' :: ps', ⟨hE.weaken (fun _ _ => trivial), hps⟩, ?_, ?_, hA.cat hA3⟩
    · intro q hq t ht
      rcases List.mem_cons.1 hq with rfl | hq
      · have := hln t ht
        rw [this]
        split <;> rfl
      · exact hln2 q hq t ht
    · rw [ht2, ht3, entToks_cons]
      simp

/-! ## Titled blocks -/

theorem test_step {ps : List Entry'} : ∀ {x : List El} {s : W} {ts : List Token} {s' : W} {ts' : List Token},
    (∀ p ∈ ps, CoreA o p.1 ∧ p.1.Simple o) → ArgCx vcx → AllPlain ts →
    Step m i (testJoin (ps.map (mkItem o vcx dir))) x s ts s' ts' →
    ∃ ps', All2 (EntRe o vcx dir (fun _ _ => True)) ps ps' ∧ ts = entToks ps' ++ ts' ∧
      Again m i (testJoin (ps.map (mkItem o vcx dir))) (testJoin (ps'.map (mkItem o vcx dir))) x := by
  induction ps with
  | nil =>
    intro x s ts s' ts' hc hv hp h
    obtain ⟨rfl, h2, h3⟩ := Step.nil h
    exact ⟨[], trivial, by simp [entToks, h3], .refl h⟩
  | cons p ps ih =>
    intro x s ts s' ts' hc hv hp h
    cases ps with
    | nil =>
      obtain ⟨hs1, p', hE, hln, ht2, hA⟩ := full_step (hc p (by simp)).1 (hc p (by simp)).2 hv hp h
      refine ⟨[p'], ⟨hE.weaken (fun _ _ => trivial), trivial⟩, ?_, hA⟩
      rw [ht2, entToks_cons]
      simp [entToks]
    | cons q ps =>
      obtain ⟨x1, x2, s1, ts1, rfl, h1, h2⟩ := Step.cat h
      obtain ⟨x3, x4, s2, ts2, rfl, h3, h4⟩ := h2.cat
      obtain ⟨hs1, p', hE, hln, ht2, hA⟩ := full_step (hc p (by simp)).1 (hc p (by simp)).2 hv hp h1
      have hp' := hp
      rw [ht2] at hp'
      have hsp := h3.space
      rw [hsp.2.2] at h4
      obtain ⟨ps', hps, ht3, hA3⟩ := ih (fun q hq => hc q (by simp [hq])) hv
        hp'.append.2.append.2 h4
      obtain ⟨q', qs', rfl, h5, h6⟩ := hps.cons_left
      refine ⟨p' :: q' :: qs', ⟨hE.weaken (fun _ _ => trivial), hps⟩, ?_, hA.cat ((Again.refl h3).cat hA3)⟩
      rw [ht2, ht3, entToks_cons p']
      simp

end

end Verif.Format
