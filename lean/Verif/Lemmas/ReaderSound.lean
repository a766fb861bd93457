import Verif.Lemmas.ReaderMain

/-!
# What the reader finds is a program

The converse of Verif.Lemmas.ReaderMain: a tree that is found by the reader fulfils the grammar, and its
tokens with their line breaks are the ones that were read.
-/

namespace Verif.Format
open Verif.Syntax

/-! ## Putting token sequences together -/

theorem fits_join {a b : List (Pos × Tok)} {us vs : Seen} (h1 : Fits a us) (h2 : Fits b vs) :
    Fits (a ++ b) (us ++ vs) := by
  induction a generalizing us with
  | nil => rw [fits_nil h1]; exact h2
  | cons p a ih =>
    obtain ⟨p, t⟩ := p
    obtain ⟨b', u, rfl, h3, h4⟩ := fits_cons h1
    exact ⟨rfl, h3, ih h4⟩

theorem fits_setHead {p : Pos} {a : List (Pos × Tok)} {us : Seen} (h : Fits a us)
    (hp : ∀ b t r, us = (b, t) :: r → p.Ok b) : Fits (setHead p a) us := by
  cases a with
  | nil => exact h
  | cons q a =>
    obtain ⟨q, t⟩ := q
    obtain ⟨b', u, rfl, h3, h4⟩ := fits_cons h
    exact ⟨rfl, hp _ _ _ rfl, h4⟩

/-- The tokens have no line ends that would be changed. -/
def PlainEnds (ts : Seen) : Prop := ∀ q ∈ ts, outTok q.2.plain = q.2

theorem PlainEnds.tail {q : Bool × Tok} {ts : Seen} (h : PlainEnds (q :: ts)) : PlainEnds ts :=
  fun r hr => h r (List.mem_cons_of_mem _ hr)

theorem PlainEnds.right {us ts : Seen} (h : PlainEnds (us ++ ts)) : PlainEnds ts :=
  fun r hr => h r (List.mem_append_right _ hr)

theorem PlainEnds.head {b : Bool} {t : Tok} {ts : Seen} (h : PlainEnds ((b, t) :: ts)) : outTok t.plain = t :=
  h (b, t) (by simp)

theorem PlainEnds.bare {b : Bool} {t : Tok} {ts : Seen} (h : PlainEnds ((b, t) :: ts)) :
    bareTok t.plain = t.plain := by
  rw [← outTok_plain, h.head]

/-! ## What follows -/

/-- What follows was not taken into the tree although operators of strength `p` were. -/
def Stop (g : Region) (eq : Bool) (p : Nat) (x : Expr) : Seen → Prop
  | [] => True
  | (b, t) :: _ => (x.openIf = true → ¬(t.kind = .elseKw ∧ (g = .top → b = false))) ∧
    (ends g b = true ∨ (extractOp t.kind = false ∧ callOf t.kind = none ∧
      ∀ lv rm, binOp t.kind = some (lv, rm) → (t.kind = .equal → eq = true ∨ 4 ≤ p) →
        lv < p ∧ lv < x.rcap))

/-- What follows cannot be taken into the last operand of the tree. -/
def PreStop (g : Region) (eq : Bool) (p : Nat) (x : Expr) : Seen → Prop
  | [] => True
  | (b, t) :: _ => (x.openIf = true → ¬(t.kind = .elseKw ∧ (g = .top → b = false))) ∧
    (ends g b = true ∨ ((x.rcap < closed → extractOp t.kind = false ∧ callOf t.kind = none) ∧
      ∀ lv rm, binOp t.kind = some (lv, rm) → (t.kind = .equal → eq = true ∨ 4 ≤ p) → lv < x.rcap))

/-- Nothing of what follows can be taken into the last operand of the tree. -/
def Firm (g : Region) (x : Expr) : Seen → Prop
  | [] => True
  | (b, t) :: _ => (x.openIf = true → ¬(t.kind = .elseKw ∧ (g = .top → b = false))) ∧
    (ends g b = true ∨ ((x.rcap < closed → extractOp t.kind = false ∧ callOf t.kind = none) ∧
      ∀ lv rm, binOp t.kind = some (lv, rm) → lv < x.rcap))

structure Got (g : Region) (eq : Bool) (p : Nat) (ts : Seen) (x : Expr) (rest : Seen) : Prop where
  split : ∃ us, ts = us ++ rest ∧ Fits (shape g x) us
  gram : x.gram eq = true
  llow : p ≤ x.llow
  bare : x.bare = x
  stop : Stop g eq p x rest

/-- The start of an expression was read. -/
structure Started (g : Region) (ts : Seen) (x : Expr) (rest : Seen) : Prop where
  split : ∃ us, ts = us ++ rest ∧ Fits (shape g x) us
  gram : x.gram false = true
  llow : x.llow = closed
  bare : x.bare = x
  stop : Firm g x rest

theorem rcap_closed_le (x : Expr) : x.rcap ≤ closed := by
  cases x <;> simp only [Expr.rcap] <;> first | exact Nat.le_refl _ | skip
  case unary o e =>
    refine Nat.le_trans min_left ?_
    cases h : unOp o.kind with
    | none => exact Nat.zero_le _
    | some rm => exact Nat.le_of_lt (unOp_small h)
  case binary x o y =>
    refine Nat.le_trans min_left ?_
    cases h : binOp o.kind with
    | none => exact Nat.zero_le _
    | some q => obtain ⟨lv, rm⟩ := q; exact Nat.le_of_lt (binOp_small h).2
  all_goals exact Nat.le_trans min_left (by decide)

theorem firm_closed {g : Region} {x : Expr} {rest : Seen} (h1 : x.rcap = closed)
    (h2 : x.openIf = false) : Firm g x rest := by
  match rest with
  | [] => trivial
  | (b, t) :: r =>
    exact ⟨fun h => (by rw [h2] at h; cases h),
      .inr ⟨fun h => absurd h (by omega), fun lv rm h => (by rw [h1]; exact (binOp_small h).1)⟩⟩

theorem Firm.before {g : Region} {x : Expr} {rest : Seen} (h : Firm g x rest) (eq : Bool) (p : Nat) :
    PreStop g eq p x rest := by
  match rest with
  | [] => trivial
  | (b, t) :: r => exact ⟨h.1, h.2.imp id fun h => ⟨h.1, fun lv rm h1 _ => h.2 lv rm h1⟩⟩

/-- The last operand decides. -/
theorem Stop.firm {g : Region} {eq : Bool} {p : Nat} {e x : Expr} {rest : Seen}
    (h : Stop g eq p e rest) (hc : eq = true ∨ 4 ≤ p) (h1 : x.rcap = min p e.rcap)
    (h2 : x.openIf = e.openIf) : Firm g x rest := by
  match rest with
  | [] => trivial
  | (b, t) :: r =>
    refine ⟨by rw [h2]; exact h.1, h.2.imp id fun h => ⟨fun _ => ⟨h.1, h.2.1⟩, fun lv rm hb => ?_⟩⟩
    have := h.2.2 lv rm hb (fun _ => hc)
    rw [h1]; exact Nat.lt_min.mpr this

theorem eat_some {k : Kind} {ts rest : Seen} {t : Token} (h : eat k ts = some (t, rest)) :
    ∃ b u, ts = (b, u) :: rest ∧ u.kind = k ∧ t = u.plain := by
  match ts with
  | [] => cases h
  | (b, u) :: ts =>
    simp only [eat] at h
    split at h
    · next hk => cases h; exact ⟨b, u, rfl, hk, rfl⟩
    · cases h

theorem eatHere_some {k : Kind} {ts rest : Seen} {t : Token} (h : eatHere k ts = some (t, rest)) :
    ∃ u, ts = (false, u) :: rest ∧ u.kind = k ∧ t = u.plain := by
  match ts with
  | [] => cases h
  | (b, u) :: ts =>
    simp only [eatHere] at h
    split at h
    · next hk => cases h; obtain ⟨h1, rfl⟩ := hk; exact ⟨u, rfl, h1, rfl⟩
    · cases h

theorem fits_tok {p : Pos} {b : Bool} {t : Tok} {tk : Token} {a : List (Pos × Tok)} {us : Seen}
    (ho : outTok tk = t) (hp : p.Ok b) (h : Fits a us) : Fits ((p, outTok tk) :: a) ((b, t) :: us) :=
  ⟨ho, hp, h⟩

theorem plain_kind (t : Tok) : t.plain.kind = t.kind := rfl

/-- A name or a string. -/
structure WordRead (ts : Seen) (x : Expr) (rest : Seen) : Prop where
  split : ∃ us, ts = us ++ rest ∧ ∀ g, Fits (shape g x) us
  gram : ∀ eq, x.gram eq = true
  llow : x.llow = closed
  rcap : x.rcap = closed
  openIf : x.openIf = false
  bare : x.bare = x

theorem readStr_word {b : Bool} {t : Tok} {ts rest : Seen} {x : Expr} (hc : PlainEnds ((b, t) :: ts))
    (hk : t.kind = .stringOpen) (h : readStr t.plain ts = some (x, rest)) :
    WordRead ((b, t) :: ts) x rest ∧ (∃ o c l, x = .str {} o c l ∧ strKinds o c l = true) := by
  unfold readStr at h
  split at h
  · next c ts' h1 =>
    obtain ⟨u, rfl, hu, rfl⟩ := eatHere_some h1
    simp only [Option.bind_eq_bind, Option.bind_eq_some_iff] at h
    obtain ⟨⟨l, ts2⟩, h2, h3⟩ := h
    obtain ⟨v, rfl, hv, rfl⟩ := eatHere_some h2
    cases h3
    have k : strKinds t.plain (some u.plain) v.plain = true := by
      simp [strKinds, plain_kind, hk, hu, hv]
    refine ⟨⟨⟨[(b, t), (false, u), (false, v)], rfl, fun g => ?_⟩, fun _ => k, rfl, rfl, rfl, ?_⟩,
      _, _, _, rfl, k⟩
    · exact ⟨hc.head, trivial, hc.tail.head, rfl, hc.tail.tail.head, rfl, trivial⟩
    · simp only [Expr.bare, Option.map, hc.bare, hc.tail.bare, hc.tail.tail.bare]
  · next h1 =>
    simp only [Option.bind_eq_bind, Option.bind_eq_some_iff] at h
    obtain ⟨⟨l, ts2⟩, h2, h3⟩ := h
    obtain ⟨v, rfl, hv, rfl⟩ := eatHere_some h2
    cases h3
    have k : strKinds t.plain none v.plain = true := by simp [strKinds, plain_kind, hk, hv]
    refine ⟨⟨⟨[(b, t), (false, v)], rfl, fun g => ?_⟩, fun _ => k, rfl, rfl, rfl, ?_⟩,
      _, _, _, rfl, k⟩
    · exact ⟨hc.head, trivial, hc.tail.head, rfl, trivial⟩
    · simp only [Expr.bare, Option.map, hc.bare, hc.tail.bare]

theorem atom_word {b : Bool} {t : Tok} {ts : Seen} {k : Kind} (hc : PlainEnds ((b, t) :: ts))
    (hk : atomKind t.kind = some k) : WordRead ((b, t) :: ts) (.atom {} k t.plain) ts :=
  ⟨⟨[(b, t)], rfl, fun _ => ⟨hc.head, trivial, trivial⟩⟩,
    fun _ => by simp [Expr.gram, plain_kind, hk], rfl, rfl, rfl, by simp only [Expr.bare, hc.bare]⟩

theorem readName_word {ks : List Kind} {ts rest : Seen} {x : Expr} (hc : PlainEnds ts)
    (h : readName ks ts = some (x, rest)) :
    WordRead ts x rest ∧ ((∃ o c l, x = .str {} o c l ∧ strKinds o c l = true) ∨
      ∃ k t, x = .atom {} k t ∧ atomKind t.kind = some k ∧ k ∈ ks) := by
  match ts with
  | [] => cases h
  | (b, t) :: ts =>
    simp only [readName] at h
    split at h
    · next hk => exact (readStr_word hc hk h).imp id .inl
    · split at h
      · next k hk =>
        split at h
        · next hm => cases h; exact ⟨atom_word hc hk, .inr ⟨_, _, rfl, hk, hm⟩⟩
        · cases h
      · cases h

theorem readName_selector {ts rest : Seen} {x : Expr} (hc : PlainEnds ts)
    (h : readName [.rIdentifier, .rDots, .rDotDotI] ts = some (x, rest)) :
    WordRead ts x rest ∧ x.selector = true := by
  obtain ⟨h1, h2⟩ := readName_word hc h
  refine ⟨h1, ?_⟩
  rcases h2 with ⟨o, c, l, rfl, h2⟩ | ⟨k, t, rfl, h2, h3⟩
  · exact h2
  · simp only [List.mem_cons, List.not_mem_nil, or_false] at h3
    simp only [Expr.selector, h2, beq_self_eq_true, Bool.true_and, Bool.or_eq_true, beq_iff_eq]
    rcases h3 with h | h | h <;> simp [h]

theorem readName_argName {ts rest : Seen} {x : Expr} (hc : PlainEnds ts)
    (h : readName [.rIdentifier, .rDots, .rDotDotI, .rNullExpression] ts = some (x, rest)) :
    WordRead ts x rest ∧ x.argName = true := by
  obtain ⟨h1, h2⟩ := readName_word hc h
  refine ⟨h1, ?_⟩
  rcases h2 with ⟨o, c, l, rfl, h2⟩ | ⟨k, t, rfl, h2, h3⟩
  · exact h2
  · simp only [List.mem_cons, List.not_mem_nil, or_false] at h3
    simp only [Expr.argName, h2, beq_self_eq_true, Bool.true_and, Bool.or_eq_true, beq_iff_eq]
    rcases h3 with h | h | h | h <;> simp [h]

theorem readParName_word {ts rest : Seen} {x : Expr} (hc : PlainEnds ts)
    (h : readParName ts = some (x, rest)) : WordRead ts x rest ∧ x.parName = true := by
  match ts with
  | [] => cases h
  | (b, t) :: ts =>
    simp only [readParName] at h
    split at h
    · next k hk =>
      split at h
      · next hm =>
        cases h
        refine ⟨atom_word hc hk, ?_⟩
        simp only [List.mem_cons, List.not_mem_nil, or_false] at hm
        simp only [Expr.parName, plain_kind, hk, beq_self_eq_true, Bool.true_and, Bool.or_eq_true,
          beq_iff_eq]
        rcases hm with h | h | h <;> simp [h]
      · cases h
    · cases h

theorem op_ok {g : Region} {b : Bool} (h : ends g b = false) : g.op.Ok b := by
  cases g <;> cases b <;> first | rfl | trivial | (revert h; decide)

theorem WordRead.started {ts rest : Seen} {x : Expr} (h : WordRead ts x rest) (g : Region) :
    Started g ts x rest := by
  obtain ⟨us, h1, h2⟩ := h.split
  exact ⟨⟨us, h1, h2 g⟩, h.gram _, h.llow, h.bare, firm_closed h.rcap h.openIf⟩

theorem readNamespace_sound {g : Region} {ts ts' rest : Seen} {x y : Expr} (hc : PlainEnds ts)
    (hw : WordRead ts x ts') (h : readNamespace g x ts' = some (y, rest)) : Started g ts y rest := by
  match ts' with
  | [] => cases h; exact hw.started g
  | (b, t) :: ts' =>
    simp only [readNamespace] at h
    split at h
    · next hn =>
      simp only [Bool.and_eq_true, Bool.not_eq_true'] at hn
      match ts' with
      | [] => cases h
      | (b', u) :: ts' =>
        simp only at h
        split at h
        · cases h
        · next he =>
          simp only [Option.bind_eq_bind, Option.bind_eq_some_iff] at h
          obtain ⟨⟨z, r⟩, h1, h2⟩ := h
          cases h2
          obtain ⟨us, rfl, hf⟩ := hw.split
          have hc1 := hc.right
          obtain ⟨hz, hs⟩ := readName_selector hc1.tail h1
          obtain ⟨vs, hv, hf2⟩ := hz.split
          refine ⟨⟨us ++ (b, t) :: vs, by rw [hv]; simp, ?_⟩, ?_, rfl, ?_, firm_closed rfl rfl⟩
          · simp only [shape]
            refine fits_join (hf g) (fits_tok hc1.head (op_ok hn.2) (fits_setHead (hf2 g) ?_))
            intro b2 t2 r2 hr
            rw [hr] at hv
            cases hv
            exact op_ok (by simpa using he)
          · simp [Expr.gram, hn.1.2, hs, plain_kind, hn.1.1]
          · simp only [Expr.bare, hw.bare, hz.bare, hc1.bare]
    · cases h; exact hw.started g

/-! ## Expressions -/

/-- The operands of an operator that follows a tree may be in the tree. -/
theorem gram_drop {x : Expr} {eq : Bool} {k : Kind} {lv rm : Nat} (h : x.gram eq = true)
    (hk : binOp k = some (lv, rm)) (hl : lv < x.rcap) : x.gram (eq && opEq k) = true := by
  cases ho : opEq k with
  | true => simpa using h
  | false =>
    have h4 : 4 ≤ lv := by
      cases k <;> first
        | (revert ho; simp [opEq]; done)
        | (revert hk; simp [binOp]; done)
        | (simp [binOp] at hk; omega)
    cases x <;> try (simpa only [Expr.gram] using h)
    case sel a k x o y => cases k <;> simpa only [Expr.gram] using h
    case binary a x o y =>
      simp only [Expr.gram, Expr.rcap, Nat.lt_min] at h hl ⊢
      cases hb : binOp o.kind with
      | none => rw [hb] at h; cases h
      | some q =>
        obtain ⟨lv', rm'⟩ := q
        rw [hb] at h hl
        simp only [Option.getD_some] at hl
        have h5 : opEq o.kind = false ∧ o.kind ≠ .equal := by
          revert hb
          cases o.kind <;> simp [opEq, binOp] <;> omega
        simp only [h5.1, Bool.and_false] at h ⊢
        simp only [Bool.and_eq_true] at h ⊢
        exact ⟨h.1, by simp [h5.2]⟩

theorem gram_closed {x : Expr} {eq : Bool} (h : x.gram eq = true) (hr : x.rcap = closed) :
    x.gram false = true := by
  cases x <;> try (simpa only [Expr.gram] using h)
  case sel a k x o y => cases k <;> simpa only [Expr.gram] using h
  case binary a x o y =>
    simp only [Expr.gram, Expr.rcap] at h hr
    cases hb : binOp o.kind with
    | none => rw [hb] at h; cases h
    | some q =>
      obtain ⟨lv', rm'⟩ := q
      have := (binOp_small hb).2
      rw [hb] at hr
      have h6 : min rm' y.rcap ≤ rm' := Nat.min_le_left ..
      simp only [Option.getD_some] at hr
      omega

theorem binOp_opEq {k : Kind} {lv rm : Nat} (h : binOp k = some (lv, rm)) :
    opEq k = true ∧ lv ≤ 3 ∨ opEq k = false ∧ 4 ≤ rm := by
  cases k <;> first | (revert h; simp [binOp]; done) | (simp [binOp] at h; simp [opEq]; omega)

/-- Statements were read. -/
structure Listed (g : Region) (ts : Seen) (es : Exprs) (rest : Seen) : Prop where
  split : ∃ us, ts = us ++ rest ∧
    ∀ p : Pos, (∀ b t r, us = (b, t) :: r → p.Ok b) → Fits (shapes g p es) us
  gram : es.gram = true
  bare : es.bare = es

/-- Arguments or parameters were read. -/
structure Given (ts : Seen) (xs : Items) (rest : Seen) : Prop where
  split : ∃ us, ts = us ++ rest ∧ Fits (shapeItems xs) us
  bare : xs.bare = xs

/-- An argument was read. -/
structure GivenArg (ts : Seen) (x : Arg) (rest : Seen) : Prop where
  split : ∃ us, ts = us ++ rest ∧ Fits (shapeArg x) us
  bare : x.bare = x

/-- What is read with this depth of recursion. -/
structure ReaderSound (n : Nat) : Prop where
  expr : ∀ {g eq p ts x rest}, PlainEnds ts → p ≤ closed →
    readExpr n g eq p ts = some (x, rest) → Got g eq p ts x rest
  loop : ∀ {g eq p us ts x y rest}, PlainEnds (us ++ ts) → p ≤ closed →
    Fits (shape g x) us → x.gram eq = true → p ≤ x.llow → x.bare = x → PreStop g eq p x ts →
    readLoop n g eq p x ts = some (y, rest) → Got g eq p (us ++ ts) y rest
  pre : ∀ {g ts x rest}, PlainEnds ts → readPrefix n g ts = some (x, rest) → Started g ts x rest
  stmts : ∀ {g ts es rest}, PlainEnds ts → readStmts n g ts = some (es, rest) → Listed g ts es rest
  args : ∀ {first close ts xs rest}, PlainEnds ts → readArgs n first close ts = some (xs, rest) →
    Given ts xs rest ∧ xs.gramArgs first = true
  arg : ∀ {close ts x rest}, PlainEnds ts → readArg n close ts = some (x, rest) →
    GivenArg ts x rest ∧ x.gramArg = true ∧ (x.isHole = true → nextIn [.comma, close] ts = true ∧
      rest = ts)
  pars : ∀ {first ts xs rest}, PlainEnds ts → readPars n first ts = some (xs, rest) →
    Given ts xs rest ∧ (if first then xs.gramPars else xs.gramPars1) = true

theorem sound_expr {n : Nat} (ih : ReaderSound n) {g : Region} {eq : Bool} {p : Nat} {ts rest : Seen}
    {x : Expr} (hc : PlainEnds ts) (hp : p ≤ closed)
    (h : readExpr (n + 1) g eq p ts = some (x, rest)) : Got g eq p ts x rest := by
  simp only [readExpr, Option.bind_eq_bind, Option.bind_eq_some_iff] at h
  obtain ⟨⟨y, ts'⟩, h1, h2⟩ := h
  have s := ih.pre hc h1
  obtain ⟨us, rfl, hf⟩ := s.split
  exact ih.loop hc hp hf (gram_mono y s.gram eq) (by rw [s.llow]; exact hp) s.bare
    (s.stop.before eq p) h2

theorem PreStop.closed_of {g : Region} {eq : Bool} {p : Nat} {x : Expr} {b : Bool} {t : Tok}
    {ts : Seen} (h : PreStop g eq p x ((b, t) :: ts)) (he : ends g b = false)
    (hx : extractOp t.kind = true ∨ callOf t.kind ≠ none) : x.rcap = closed := by
  rcases h.2 with h | h
  · rw [he] at h; cases h
  · refine Nat.le_antisymm (rcap_closed_le x) (Nat.le_of_not_lt fun hl => ?_)
    have := h.1 hl
    rcases hx with h | h
    · rw [this.1] at h; cases h
    · exact h this.2

theorem callOf_kind {k : Kind} {c : CallKind} (h : callOf k = some c) : k = openKind c := by
  cases k <;> simp [callOf] at h <;> subst h <;> rfl

theorem sound_loop {n : Nat} (ih : ReaderSound n) {g : Region} {eq : Bool} {p : Nat} {us ts rest : Seen}
    {x y : Expr} (hc : PlainEnds (us ++ ts)) (hp : p ≤ closed) (hf : Fits (shape g x) us)
    (hg : x.gram eq = true) (hl : p ≤ x.llow) (hb : x.bare = x) (hs : PreStop g eq p x ts)
    (h : readLoop (n + 1) g eq p x ts = some (y, rest)) : Got g eq p (us ++ ts) y rest := by
  match ts with
  | [] => simp only [readLoop] at h; cases h; exact ⟨⟨us, rfl, hf⟩, hg, hl, hb, trivial⟩
  | (b, t) :: ts =>
    simp only [readLoop] at h
    have hc1 := hc.right
    split at h
    · next he => cases h; exact ⟨⟨us, rfl, hf⟩, hg, hl, hb, hs.1, .inl he⟩
    · next he =>
      have he : ends g b = false := by simpa using he
      split at h
      · next hx =>
        simp only [Option.bind_eq_bind, Option.bind_eq_some_iff] at h
        obtain ⟨⟨z, ts'⟩, h1, h2⟩ := h
        obtain ⟨hz, hsel⟩ := readName_selector hc1.tail h1
        obtain ⟨vs, rfl, hf2⟩ := hz.split
        have hr := hs.closed_of he (.inl hx)
        have := ih.loop (us := us ++ (b, t) :: vs) (ts := ts') (g := g) (eq := eq) (p := p)
          (x := .sel {} .extract x t.plain z) (by simpa using hc) hp ?_ ?_ ?_ ?_ ?_ h2
        · simpa using this
        · simp only [shape]
          exact fits_join hf (fits_tok hc1.head (op_ok he) (hf2 g))
        · simp [Expr.gram, gram_closed hg hr, hr, plain_kind, hx, hsel]
        · exact hl
        · simp only [Expr.bare, hb, hz.bare, hc1.bare]
        · exact (firm_closed rfl rfl).before _ _
      · next hx =>
        have hx : extractOp t.kind = false := by simpa using hx
        split at h
        · next k hk =>
          simp only [Option.bind_eq_bind, Option.bind_eq_some_iff] at h
          obtain ⟨⟨items, ts1⟩, h1, ⟨r, ts2⟩, h2, h3⟩ := h
          obtain ⟨hi, hig⟩ := ih.args hc1.tail h1
          obtain ⟨vs, rfl, hf2⟩ := hi.split
          obtain ⟨b', u, rfl, hu, rfl⟩ := eat_some h2
          have hc2 := hc1.tail.right
          have hr := hs.closed_of he (.inr (by rw [hk]; simp))
          have := ih.loop (us := us ++ (b, t) :: (vs ++ [(b', u)])) (ts := ts2) (g := g) (eq := eq)
            (p := p) (x := .call {} k x {} t.plain items u.plain) (by simpa using hc) hp ?_ ?_ ?_ ?_ ?_ h3
          · simpa using this
          · simp only [shape]
            exact fits_join hf (fits_tok hc1.head (op_ok he)
              (fits_join hf2 (fits_tok hc2.head trivial trivial)))
          · simp [Expr.gram, gram_closed hg hr, hr, plain_kind, callOf_kind hk, hig, hu]
          · exact hl
          · simp only [Expr.bare, hb, hi.bare, hc1.bare, hc2.bare]
          · exact (firm_closed rfl rfl).before _ _
        · next hk =>
          split at h
          · next lv rm hbo =>
            have hsm := binOp_small hbo
            have hlr : (t.kind = .equal → eq = true ∨ 4 ≤ p) → lv < x.rcap := fun h1 => by
              rcases hs.2 with h | h
              · rw [he] at h; cases h
              · exact h.2 lv rm hbo h1
            split at h
            · next hcond =>
              obtain ⟨hpl, hq⟩ := hcond
              have hlr := hlr fun h => .inl (hq h)
              simp only [Option.bind_eq_bind, Option.bind_eq_some_iff] at h
              obtain ⟨⟨z, ts'⟩, h1, h2⟩ := h
              have hz := ih.expr hc1.tail (Nat.le_of_lt hsm.2) h1
              obtain ⟨vs, rfl, hf2⟩ := hz.split
              have := ih.loop (us := us ++ (b, t) :: vs) (ts := ts') (g := g) (eq := eq) (p := p)
                (x := .binary {} x t.plain z) (by simpa using hc) hp ?_ ?_ ?_ ?_ ?_ h2
              · simpa using this
              · simp only [shape]
                exact fits_join hf (fits_tok hc1.head (op_ok he) hf2)
              · simp only [Expr.gram, plain_kind, hbo, gram_drop hg hbo hlr, hz.gram, Bool.true_and,
                  hlr, hz.llow, decide_true]
                cases hh : eq <;> simp
                intro h; rw [hq h] at hh; cases hh
              · simp only [Expr.llow, plain_kind, hbo, Option.getD_some]
                exact Nat.le_min.mpr ⟨hpl, hl⟩
              · simp only [Expr.bare, hb, hz.bare, hc1.bare]
              · have hst := hz.stop
                match ts', hst with
                | [], _ => trivial
                | (b', t') :: r, hst =>
                  refine ⟨hst.1, hst.2.imp id fun h => ⟨fun _ => ⟨h.1, h.2.1⟩, fun lv' rm' hb' hc' => ?_⟩⟩
                  simp only [Expr.rcap, plain_kind, hbo, Option.getD_some]
                  refine Nat.lt_min.mpr (h.2.2 lv' rm' hb' fun hk' => ?_)
                  rcases binOp_opEq hbo with ⟨h5, h6⟩ | ⟨h5, h6⟩
                  · rcases hc' hk' with h7 | h7
                    · left; rw [h5, h7]; rfl
                    · omega
                  · exact .inr h6
            · next hcond =>
              cases h
              refine ⟨⟨us, rfl, hf⟩, hg, hl, hb, hs.1, .inr ⟨hx, hk, fun lv' rm' hb' hq => ?_⟩⟩
              rw [hbo] at hb'
              cases hb'
              refine ⟨Nat.lt_of_not_le fun h => hcond ⟨h, fun hk => ?_⟩, hlr hq⟩
              rcases hq hk with h2 | h2
              · exact h2
              · rw [hk] at hbo
                simp [binOp] at hbo
                omega
          · next hbo =>
            cases h
            refine ⟨⟨us, rfl, hf⟩, hg, hl, hb, hs.1, .inr ⟨hx, hk, fun lv' rm' hb' hq => ?_⟩⟩
            rw [hbo] at hb'; cases hb'

/-- A body and what comes before it. -/
theorem Got.body {g : Region} {ts rest : Seen} {e x : Expr} (h : Got g true bodyOp ts e rest)
    (h1 : x.rcap = min bodyOp e.rcap) (h2 : x.openIf = e.openIf) : Firm g x rest :=
  h.stop.firm (.inl rfl) h1 h2

theorem sound_pre {n : Nat} (ih : ReaderSound n) {g : Region} {ts rest : Seen} {x : Expr}
    (hc : PlainEnds ts) (h : readPrefix (n + 1) g ts = some (x, rest)) : Started g ts x rest := by
  match ts with
  | [] => simp only [readPrefix] at h; cases h
  | (b, t) :: ts =>
    have hb0 : bodyOp ≤ closed := by decide
    have h0 : 0 ≤ closed := by decide
    simp only [readPrefix] at h
    split at h
    · next hk =>
      simp only [Option.bind_eq_bind, Option.bind_eq_some_iff] at h
      obtain ⟨⟨e, ts1⟩, h1, ⟨r, ts2⟩, h2, h3⟩ := h
      cases h3
      have he := ih.expr hc.tail h0 h1
      obtain ⟨us, rfl, hf⟩ := he.split
      obtain ⟨b', u, rfl, hu, rfl⟩ := eat_some h2
      have hc2 := hc.tail.right
      refine ⟨⟨(b, t) :: (us ++ [(b', u)]), by simp, ?_⟩, ?_, rfl, ?_, firm_closed rfl rfl⟩
      · simp only [shape]
        exact fits_tok hc.head trivial (fits_join hf (fits_tok hc2.head trivial trivial))
      · simp [Expr.gram, plain_kind, hk, hu, he.gram]
      · simp only [Expr.bare, hc.bare, he.bare, hc2.bare]
    · next hk =>
      simp only [Option.bind_eq_bind, Option.bind_eq_some_iff] at h
      obtain ⟨⟨es, ts1⟩, h1, ⟨r, ts2⟩, h2, h3⟩ := h
      cases h3
      have he := ih.stmts hc.tail h1
      obtain ⟨us, rfl, hf⟩ := he.split
      obtain ⟨b', u, rfl, hu, rfl⟩ := eat_some h2
      have hc2 := hc.tail.right
      refine ⟨⟨(b, t) :: (us ++ [(b', u)]), by simp, ?_⟩, ?_, rfl, ?_, firm_closed rfl rfl⟩
      · simp only [shape]
        exact fits_tok hc.head trivial (fits_join (hf .free fun _ _ _ _ => trivial)
          (fits_tok hc2.head trivial trivial))
      · simp [Expr.gram, plain_kind, hk, hu, he.gram]
      · simp only [Expr.bare, hc.bare, he.bare, hc2.bare]
    iterate 2
      · next hk =>
        simp only [Option.bind_eq_bind, Option.bind_eq_some_iff] at h
        obtain ⟨⟨l, ts1⟩, h1, ⟨items, ts2⟩, h2, ⟨r, ts3⟩, h3, ⟨body, ts4⟩, h4, h5⟩ := h
        cases h5
        obtain ⟨b1, u1, rfl, hu1, rfl⟩ := eat_some h1
        obtain ⟨hi, hig⟩ := ih.pars hc.tail.tail h2
        obtain ⟨us, rfl, hf⟩ := hi.split
        obtain ⟨b2, u2, rfl, hu2, rfl⟩ := eat_some h3
        have hc2 := hc.tail.tail.right
        have he := ih.expr hc2.tail hb0 h4
        obtain ⟨vs, rfl, hf2⟩ := he.split
        refine ⟨⟨(b, t) :: (b1, u1) :: (us ++ (b2, u2) :: vs), by simp, ?_⟩, ?_, rfl, ?_,
          he.body rfl rfl⟩
        · simp only [shape]
          exact fits_tok hc.head trivial (fits_tok hc.tail.head trivial (fits_join hf
            (fits_tok hc2.head trivial hf2)))
        · simp only [if_true] at hig
          simp [Expr.gram, plain_kind, hk, hu1, hu2, he.gram, he.llow, hig]
        · simp only [Expr.bare, hc.bare, hc.tail.bare, he.bare, hc2.bare, hi.bare]
    · next hk =>
      simp only [Option.bind_eq_bind, Option.bind_eq_some_iff] at h
      obtain ⟨⟨l, ts1⟩, h1, ⟨c, ts2⟩, h2, ⟨r, ts3⟩, h3, ⟨body, ts4⟩, h4, h5⟩ := h
      obtain ⟨b1, u1, rfl, hu1, rfl⟩ := eat_some h1
      have hi := ih.expr hc.tail.tail h0 h2
      obtain ⟨us, rfl, hf⟩ := hi.split
      obtain ⟨b2, u2, rfl, hu2, rfl⟩ := eat_some h3
      have hc2 := hc.tail.tail.right
      have he := ih.expr hc2.tail hb0 h4
      obtain ⟨vs, rfl, hf2⟩ := he.split
      match ts4 with
      | [] =>
        cases h5
        refine ⟨⟨(b, t) :: (b1, u1) :: (us ++ (b2, u2) :: vs), by simp, ?_⟩, ?_, rfl, ?_, trivial⟩
        · simp only [shape]
          exact fits_tok hc.head trivial (fits_tok hc.tail.head trivial (fits_join hf
            (fits_tok hc2.head trivial hf2)))
        · simp [Expr.gram, plain_kind, hk, hu1, hu2, he.gram, he.llow, hi.gram]
        · simp only [Expr.bare, hc.bare, hc.tail.bare, he.bare, hc2.bare, hi.bare]
      | (b3, u3) :: ts4 =>
        simp only at h5
        split at h5
        · next hel =>
          simp only [Option.bind_eq_some_iff] at h5
          obtain ⟨⟨e, ts5⟩, h6, h7⟩ := h5
          cases h7
          have hc3 := hc2.tail.right
          have he2 := ih.expr hc3.tail hb0 h6
          obtain ⟨ws, rfl, hf3⟩ := he2.split
          refine ⟨⟨(b, t) :: (b1, u1) :: (us ++ (b2, u2) :: (vs ++ (b3, u3) :: ws)), by simp, ?_⟩, ?_,
            rfl, ?_, he2.body rfl rfl⟩
          · simp only [shape]
            refine fits_tok hc.head trivial (fits_tok hc.tail.head trivial (fits_join hf
              (fits_tok hc2.head trivial (fits_join hf2 (fits_tok hc3.head ?_ hf3)))))
            cases g
            · exact hel.2 rfl
            · trivial
            · trivial
          · have : body.openIf = false := by
              cases ho : body.openIf with
              | false => rfl
              | true => exact absurd hel (he.stop.1 ho)
            simp [Expr.gram, plain_kind, hk, hu1, hu2, he.gram, he.llow, hi.gram, this, hel.1,
              he2.gram, he2.llow]
          · simp only [Expr.bare, hc.bare, hc.tail.bare, he.bare, hc2.bare, hi.bare, he2.bare, hc3.bare]
        · next hel =>
          cases h5
          refine ⟨⟨(b, t) :: (b1, u1) :: (us ++ (b2, u2) :: vs), by simp, ?_⟩, ?_, rfl, ?_, ?_⟩
          · simp only [shape]
            exact fits_tok hc.head trivial (fits_tok hc.tail.head trivial (fits_join hf
              (fits_tok hc2.head trivial hf2)))
          · simp [Expr.gram, plain_kind, hk, hu1, hu2, he.gram, he.llow, hi.gram]
          · simp only [Expr.bare, hc.bare, hc.tail.bare, he.bare, hc2.bare, hi.bare]
          · refine ⟨fun _ => hel, ?_⟩
            exact (he.stop.firm (x := .repeat_ {} t.plain body) (.inl rfl) rfl rfl).2
    · next hk =>
      simp only [Option.bind_eq_bind, Option.bind_eq_some_iff] at h
      obtain ⟨⟨l, ts1⟩, h1, ⟨v, ts2⟩, h2, ⟨i, ts3⟩, h3, ⟨s, ts4⟩, h4, ⟨r, ts5⟩, h5, ⟨body, ts6⟩, h6,
        h7⟩ := h
      cases h7
      obtain ⟨b1, u1, rfl, hu1, rfl⟩ := eat_some h1
      obtain ⟨hv, hvn⟩ := readParName_word hc.tail.tail h2
      obtain ⟨us, rfl, hf⟩ := hv.split
      obtain ⟨b2, u2, rfl, hu2, rfl⟩ := eat_some h3
      have hc2 := hc.tail.tail.right
      have hs := ih.expr hc2.tail h0 h4
      obtain ⟨ws, rfl, hf3⟩ := hs.split
      obtain ⟨b3, u3, rfl, hu3, rfl⟩ := eat_some h5
      have hc3 := hc2.tail.right
      have he := ih.expr hc3.tail hb0 h6
      obtain ⟨vs, rfl, hf2⟩ := he.split
      refine ⟨⟨(b, t) :: (b1, u1) :: (us ++ (b2, u2) :: (ws ++ (b3, u3) :: vs)), by simp, ?_⟩, ?_, rfl,
        ?_, he.body rfl rfl⟩
      · simp only [shape]
        exact fits_tok hc.head trivial (fits_tok hc.tail.head trivial (fits_join (hf _)
          (fits_tok hc2.head trivial (fits_join hf3 (fits_tok hc3.head trivial hf2)))))
      · simp [Expr.gram, plain_kind, hk, hu1, hu2, hu3, he.gram, he.llow, hvn, hs.gram]
      · simp only [Expr.bare, hc.bare, hc.tail.bare, he.bare, hc2.bare, hc3.bare, hv.bare, hs.bare]
    · next hk =>
      simp only [Option.bind_eq_bind, Option.bind_eq_some_iff] at h
      obtain ⟨⟨l, ts1⟩, h1, ⟨c, ts2⟩, h2, ⟨r, ts3⟩, h3, ⟨body, ts4⟩, h4, h5⟩ := h
      cases h5
      obtain ⟨b1, u1, rfl, hu1, rfl⟩ := eat_some h1
      have hi := ih.expr hc.tail.tail h0 h2
      obtain ⟨us, rfl, hf⟩ := hi.split
      obtain ⟨b2, u2, rfl, hu2, rfl⟩ := eat_some h3
      have hc2 := hc.tail.tail.right
      have he := ih.expr hc2.tail hb0 h4
      obtain ⟨vs, rfl, hf2⟩ := he.split
      refine ⟨⟨(b, t) :: (b1, u1) :: (us ++ (b2, u2) :: vs), by simp, ?_⟩, ?_, rfl, ?_,
        he.body rfl rfl⟩
      · simp only [shape]
        exact fits_tok hc.head trivial (fits_tok hc.tail.head trivial (fits_join hf
          (fits_tok hc2.head trivial hf2)))
      · simp [Expr.gram, plain_kind, hk, hu1, hu2, he.gram, he.llow, hi.gram]
      · simp only [Expr.bare, hc.bare, hc.tail.bare, he.bare, hc2.bare, hi.bare]
    · next hk =>
      simp only [Option.bind_eq_bind, Option.bind_eq_some_iff] at h
      obtain ⟨⟨body, ts4⟩, h4, h5⟩ := h
      cases h5
      have he := ih.expr hc.tail hb0 h4
      obtain ⟨vs, rfl, hf2⟩ := he.split
      refine ⟨⟨(b, t) :: vs, by simp, ?_⟩, ?_, rfl, ?_, he.body rfl rfl⟩
      · simp only [shape]
        exact fits_tok hc.head trivial hf2
      · simp [Expr.gram, plain_kind, hk, he.gram, he.llow]
      · simp only [Expr.bare, hc.bare, he.bare]
    · next hk =>
      simp only [Option.bind_eq_bind, Option.bind_eq_some_iff] at h
      obtain ⟨⟨x', ts1⟩, h1, h2⟩ := h
      exact readNamespace_sound hc (readStr_word hc hk h1).1 h2
    · split at h
      · next rm hu =>
        simp only [Option.bind_eq_bind, Option.bind_eq_some_iff] at h
        obtain ⟨⟨e, ts1⟩, h1, h2⟩ := h
        cases h2
        have he := ih.expr hc.tail (Nat.le_of_lt (unOp_small hu)) h1
        obtain ⟨vs, rfl, hf2⟩ := he.split
        refine ⟨⟨(b, t) :: vs, by simp, ?_⟩, ?_, rfl, ?_, he.stop.firm ?_ ?_ rfl⟩
        · simp only [shape]
          exact fits_tok hc.head trivial hf2
        · simp [Expr.gram, plain_kind, hu, he.gram, he.llow]
        · simp only [Expr.bare, hc.bare, he.bare]
        · revert hu
          cases t.kind <;> simp [unOp] <;> omega
        · simp only [Expr.rcap, plain_kind, hu, Option.getD_some]
      · split at h
        · next k hk => exact readNamespace_sound hc (atom_word hc hk) h
        · cases h

theorem sound_stmts {n : Nat} (ih : ReaderSound n) {g : Region} {ts rest : Seen} {es : Exprs}
    (hc : PlainEnds ts) (h : readStmts (n + 1) g ts = some (es, rest)) : Listed g ts es rest := by
  match ts with
  | [] => simp only [readStmts] at h; cases h; exact ⟨⟨[], rfl, fun _ _ => trivial⟩, rfl, rfl⟩
  | (b, t) :: ts =>
    simp only [readStmts] at h
    split at h
    · cases h; exact ⟨⟨[], rfl, fun _ _ => trivial⟩, rfl, rfl⟩
    · simp only [Option.bind_eq_bind, Option.bind_eq_some_iff] at h
      obtain ⟨⟨e, ts1⟩, h1, h2⟩ := h
      have he := ih.expr hc (by decide) h1
      obtain ⟨us, hu, hf⟩ := he.split
      match ts1 with
      | [] =>
        cases h2
        refine ⟨⟨us, hu, fun p hp => ?_⟩, by simp [Exprs.gram, he.gram], by simp only [Exprs.bare, he.bare]⟩
        simp only [shapes, List.append_nil]
        exact fits_setHead hf hp
      | (b', u) :: ts1 =>
        simp only at h2
        split at h2
        · next hcond =>
          simp only [Option.bind_eq_some_iff] at h2
          obtain ⟨⟨es', ts2⟩, h3, h4⟩ := h2
          cases h4
          have hc1 : PlainEnds ((b', u) :: ts1) := by rw [hu] at hc; exact hc.right
          have hs := ih.stmts hc1 h3
          obtain ⟨vs, hv, hf2⟩ := hs.split
          refine ⟨⟨us ++ vs, by rw [hu, hv, List.append_assoc], fun p hp => ?_⟩, ?_, ?_⟩
          · simp only [shapes]
            refine fits_join (fits_setHead hf ?_) (hf2 _ ?_)
            · rintro b1 t1 r1 rfl; exact hp b1 t1 _ rfl
            · rintro b1 t1 r1 rfl
              cases hv
              rcases hcond with hr | hr
              · cases n with
                | zero => simp only [readStmts] at h3; cases h3
                | succ n =>
                  simp only [readStmts, hr, if_true] at h3
                  have := congrArg (fun q => (q.map Prod.snd).map List.length) h3
                  simp at this
                  omega
              · exact hr
          · simp [Exprs.gram, he.gram, hs.gram]
          · simp only [Exprs.bare, he.bare, hs.bare]
        · cases h2

theorem sound_arg {n : Nat} (ih : ReaderSound n) {close : Kind} {ts rest : Seen} {x : Arg}
    (hc : PlainEnds ts) (h : readArg (n + 1) close ts = some (x, rest)) :
    GivenArg ts x rest ∧ x.gramArg = true ∧ (x.isHole = true → nextIn [.comma, close] ts = true ∧
      rest = ts) := by
  simp only [readArg] at h
  split at h
  · next hn => cases h; exact ⟨⟨⟨[], rfl, trivial⟩, rfl⟩, rfl, fun _ => ⟨hn, rfl⟩⟩
  · split at h
    · next nm q ts1 h1 =>
      simp only [readNameEq, Option.bind_eq_bind, Option.bind_eq_some_iff] at h1
      obtain ⟨⟨n', ts2⟩, h2, ⟨q', ts3⟩, h3, h4⟩ := h1
      cases h4
      obtain ⟨hw, ha⟩ := readName_argName hc h2
      obtain ⟨us, rfl, hf⟩ := hw.split
      obtain ⟨b1, u1, rfl, hu1, rfl⟩ := eat_some h3
      have hc1 := hc.right
      split at h
      · cases h
        refine ⟨⟨⟨us ++ [(b1, u1)], by simp, ?_⟩, ?_⟩, by simp [Arg.gramArg, ha, plain_kind, hu1], nofun⟩
        · simp only [shapeArg]; exact fits_join (hf _) (fits_tok hc1.head trivial trivial)
        · simp only [Arg.bare, hw.bare, hc1.bare]
      · simp only [Option.bind_eq_bind, Option.bind_eq_some_iff] at h
        obtain ⟨⟨e, ts4⟩, h5, h6⟩ := h
        cases h6
        have he := ih.expr hc1.tail (by decide) h5
        obtain ⟨vs, rfl, hf2⟩ := he.split
        refine ⟨⟨⟨us ++ (b1, u1) :: vs, by simp, ?_⟩, ?_⟩,
          by simp [Arg.gramArg, ha, plain_kind, hu1, he.gram], nofun⟩
        · simp only [shapeArg]; exact fits_join (hf _) (fits_tok hc1.head trivial hf2)
        · simp only [Arg.bare, hw.bare, hc1.bare, he.bare]
    · simp only [Option.bind_eq_bind, Option.bind_eq_some_iff] at h
      obtain ⟨⟨e, ts4⟩, h5, h6⟩ := h
      cases h6
      have he := ih.expr hc (by decide) h5
      obtain ⟨vs, rfl, hf2⟩ := he.split
      exact ⟨⟨⟨vs, rfl, hf2⟩, by simp only [Arg.bare, he.bare]⟩, he.gram, nofun⟩

theorem sound_args {n : Nat} (ih : ReaderSound n) {first : Bool} {close : Kind} {ts rest : Seen}
    {xs : Items} (hc : PlainEnds ts) (h : readArgs (n + 1) first close ts = some (xs, rest)) :
    Given ts xs rest ∧ xs.gramArgs first = true := by
  simp only [readArgs] at h
  split at h
  · next hn =>
    cases h
    simp only [Bool.and_eq_true] at hn
    exact ⟨⟨⟨[], rfl, trivial⟩, rfl⟩, hn.1⟩
  · next hn =>
    simp only [Option.bind_eq_bind, Option.bind_eq_some_iff] at h
    obtain ⟨⟨x, ts1⟩, h1, h2⟩ := h
    obtain ⟨ha, hg, hh⟩ := ih.arg hc h1
    obtain ⟨us, hu, hf⟩ := ha.split
    match ts1 with
    | [] => cases h2
    | (b, t) :: ts1 =>
      have hc1 : PlainEnds ((b, t) :: ts1) := by rw [hu] at hc; exact hc.right
      simp only at h2
      split at h2
      · next hk =>
        simp only [Option.bind_eq_some_iff] at h2
        obtain ⟨⟨xs', ts2⟩, h3, h4⟩ := h2
        cases h4
        obtain ⟨hx, hxg⟩ := ih.args hc1.tail h3
        obtain ⟨vs, hv, hf2⟩ := hx.split
        refine ⟨⟨⟨us ++ (b, t) :: vs, by rw [hu, hv]; simp, ?_⟩, ?_⟩, ?_⟩
        · simp only [shapeItems]; exact fits_join hf (fits_tok hc1.head trivial hf2)
        · simp only [Items.bare, ha.bare, hc1.bare, hx.bare]
        · simp [Items.gramArgs, hg, plain_kind, hk, hxg]
      · next hk =>
        cases h2
        refine ⟨⟨⟨us, hu, hf⟩, by simp only [Items.bare, ha.bare]⟩, ?_⟩
        simp only [Items.gramArgs, hg, Bool.true_and, Bool.not_eq_true', Bool.and_eq_false_iff]
        cases hf1 : first with
        | false => exact .inl rfl
        | true =>
          right
          cases hx : x.isHole with
          | false => rfl
          | true =>
            obtain ⟨h5, h6⟩ := hh hx
            rw [← h6] at h5 hn
            simp only [hf1, nextIn] at h5 hn
            simp at h5 hn
            exact absurd h5 (by simp [hk, hn])

theorem sound_pars {n : Nat} (ih : ReaderSound n) {first : Bool} {ts rest : Seen}
    {xs : Items} (hc : PlainEnds ts) (h : readPars (n + 1) first ts = some (xs, rest)) :
    Given ts xs rest ∧ (if first then xs.gramPars else xs.gramPars1) = true := by
  simp only [readPars] at h
  split at h
  · next hn =>
    cases h
    simp only [Bool.and_eq_true] at hn
    exact ⟨⟨⟨[], rfl, trivial⟩, rfl⟩, by rw [hn.1]; rfl⟩
  · simp only [Option.bind_eq_bind, Option.bind_eq_some_iff] at h
    obtain ⟨⟨nm, ts0⟩, h0, ⟨x, ts1⟩, h1, h2⟩ := h
    have hx : GivenArg ts x ts1 ∧ x.gramPar = true := by
      obtain ⟨hw, ha⟩ := readParName_word hc h0
      obtain ⟨us, rfl, hf⟩ := hw.split
      have hc1 := hc.right
      split at h1
      · next q ts2 h3 =>
        obtain ⟨b1, u1, rfl, hu1, rfl⟩ := eat_some h3
        simp only [Option.bind_eq_some_iff] at h1
        obtain ⟨⟨e, ts4⟩, h5, h6⟩ := h1
        cases h6
        have he := ih.expr hc1.tail (by decide) h5
        obtain ⟨vs, rfl, hf2⟩ := he.split
        refine ⟨⟨⟨us ++ (b1, u1) :: vs, by simp, ?_⟩, ?_⟩,
          by simp [Arg.gramPar, ha, plain_kind, hu1, he.gram]⟩
        · simp only [shapeArg]; exact fits_join (hf _) (fits_tok hc1.head trivial hf2)
        · simp only [Arg.bare, hw.bare, hc1.bare, he.bare]
      · cases h1
        exact ⟨⟨⟨us, rfl, hf _⟩, by simp only [Arg.bare, hw.bare]⟩, ha⟩
    obtain ⟨ha, hg⟩ := hx
    obtain ⟨us, hu, hf⟩ := ha.split
    match ts1 with
    | [] => cases h2
    | (b, t) :: ts1 =>
      have hc1 : PlainEnds ((b, t) :: ts1) := by rw [hu] at hc; exact hc.right
      simp only at h2
      split at h2
      · next hk =>
        simp only [Option.bind_eq_some_iff] at h2
        obtain ⟨⟨xs', ts2⟩, h3, h4⟩ := h2
        cases h4
        obtain ⟨hx, hxg⟩ := ih.pars hc1.tail h3
        obtain ⟨vs, hv, hf2⟩ := hx.split
        refine ⟨⟨⟨us ++ (b, t) :: vs, by rw [hu, hv]; simp, ?_⟩, ?_⟩, ?_⟩
        · simp only [shapeItems]; exact fits_join hf (fits_tok hc1.head trivial hf2)
        · simp only [Items.bare, ha.bare, hc1.bare, hx.bare]
        · simp only [Bool.false_eq_true, if_false] at hxg
          cases first <;> simp [Items.gramPars, Items.gramPars1, hg, plain_kind, hk, hxg]
      · cases h2
        refine ⟨⟨⟨us, hu, hf⟩, by simp only [Items.bare, ha.bare]⟩, ?_⟩
        cases first <;> simp [Items.gramPars, Items.gramPars1, hg]

theorem reader_sound (n : Nat) : ReaderSound n := by
  induction n with
  | zero =>
    constructor <;> intros <;> rename_i h <;>
      simp [readExpr, readLoop, readPrefix, readStmts, readArgs, readArg, readPars] at h
  | succ n ih =>
    exact ⟨fun h1 h2 h3 => sound_expr ih h1 h2 h3, fun h1 h2 h3 h4 h5 h6 h7 h8 =>
      sound_loop ih h1 h2 h3 h4 h5 h6 h7 h8, fun h1 h2 => sound_pre ih h1 h2,
      fun h1 h2 => sound_stmts ih h1 h2, fun h1 h2 => sound_args ih h1 h2,
      fun h1 h2 => sound_arg ih h1 h2, fun h1 h2 => sound_pars ih h1 h2⟩

/-- What is read in a file is a program and its tokens are those of the file. -/
theorem readFile_sound {ts : Seen} {es : Exprs} (hc : PlainEnds ts) (h : readFile ts = some es) :
    es.gram = true ∧ Fits (shapes .top .free es) ts ∧ es.bare = es := by
  unfold readFile at h
  split at h
  · next es' h1 =>
    cases h
    have := (reader_sound _).stmts hc h1
    obtain ⟨us, hu, hf⟩ := this.split
    rw [List.append_nil] at hu
    subst hu
    exact ⟨this.gram, hf .free fun _ _ _ _ => trivial, this.bare⟩
  · cases h

end Verif.Format
