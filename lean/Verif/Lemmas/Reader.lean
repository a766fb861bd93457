import Verif.Spec.Grammar

/-!
# The reader finds every program
-/

namespace Verif.Format
open Verif.Syntax

/-! ## Taking token sequences apart -/

theorem fits_app {a b : List (Pos × Tok)} {us : Seen} (h : Fits (a ++ b) us) :
    ∃ u v, us = u ++ v ∧ Fits a u ∧ Fits b v := by
  induction a generalizing us with
  | nil => exact ⟨[], us, rfl, trivial, h⟩
  | cons p a ih =>
    obtain ⟨p, t⟩ := p
    cases us with
    | nil => exact h.elim
    | cons u us =>
      obtain ⟨b', t'⟩ := u
      obtain ⟨h1, h2, h3⟩ := h
      obtain ⟨u, v, rfl, hu, hv⟩ := ih h3
      exact ⟨(b', t') :: u, v, rfl, ⟨h1, h2, hu⟩, hv⟩

theorem fits_cons {p : Pos} {t : Tok} {a : List (Pos × Tok)} {us : Seen} (h : Fits ((p, t) :: a) us) :
    ∃ b u, us = (b, t) :: u ∧ p.Ok b ∧ Fits a u := by
  cases us with
  | nil => exact h.elim
  | cons u us =>
    obtain ⟨b', t'⟩ := u
    obtain ⟨h1, h2, h3⟩ := h
    exact ⟨b', us, by rw [h1], h2, h3⟩

theorem fits_nil {us : Seen} (h : Fits [] us) : us = [] := by
  cases us with
  | nil => rfl
  | cons u us => exact h.elim

theorem fits_one {p : Pos} {t : Tok} {us : Seen} (h : Fits [(p, t)] us) :
    ∃ b, us = [(b, t)] ∧ p.Ok b := by
  obtain ⟨b, u, rfl, h1, h2⟩ := fits_cons h
  rw [fits_nil h2]
  exact ⟨b, rfl, h1⟩

@[simp] theorem outTok_kind (t : Token) : (outTok t).kind = t.kind := rfl

@[simp] theorem outTok_plain (t : Token) : (outTok t).plain = bareTok t := rfl

theorem op_ends {g : Region} {b : Bool} (h : g.op.Ok b) : ends g b = false := by
  cases g with
  | paren => simp [ends]
  | top => have : b = false := h; simp [ends, this]
  | brace => have : b = false := h; simp [ends, this]

/-! ## What may follow -/

/-- What follows does not become part of a tree with the given `rcap` and `openIf`. -/
def Next (g : Region) (cap : Nat) (oi : Bool) : Seen → Prop
  | [] => True
  | (b, t) :: _ => (t.kind = .elseKw → oi = false) ∧
    (ends g b = true ∨ (namespaceOp t.kind = false ∧
      (cap < closed → extractOp t.kind = false ∧ callOf t.kind = none) ∧
      ∀ lv rm, binOp t.kind = some (lv, rm) → lv < cap))

theorem Next.mono {g : Region} {c c' : Nat} {o o' : Bool} {r : Seen} (h : Next g c o r)
    (hc : c ≤ c') (ho : o' = true → o = true) : Next g c' o' r := by
  cases r with
  | nil => trivial
  | cons u r =>
    obtain ⟨b, t⟩ := u
    refine ⟨fun he => ?_, ?_⟩
    · cases ho' : o' with
      | false => rfl
      | true => have := h.1 he; rw [ho ho'] at this; cases this
    · rcases h.2 with h | ⟨h1, h2, h3⟩
      · exact .inl h
      · exact .inr ⟨h1, fun hl => h2 (by omega), fun lv rm hb => Nat.lt_of_lt_of_le (h3 lv rm hb) hc⟩

/-- What follows ends the loop. -/
theorem loop_done {g : Region} {c : Nat} {o : Bool} {r : Seen} (h : Next g c o r) {p : Nat}
    (hc : c ≤ p) (hp : p < closed) (eq : Bool) (x : Expr) {m : Nat} (hm : 1 ≤ m) :
    readLoop m g eq p x r = some (x, r) := by
  obtain ⟨m, rfl⟩ : ∃ k, m = k + 1 := ⟨m - 1, by omega⟩
  cases r with
  | nil => rfl
  | cons u r =>
    obtain ⟨b, t⟩ := u
    rw [readLoop]
    rcases h.2 with h | ⟨h1, h2, h4⟩
    · rw [if_pos h]
    · obtain ⟨h1, h3⟩ := h2 (by omega)
      split
      · rfl
      · rw [if_neg (by rw [h1]; decide)]
        simp only [h3]
        cases hb : binOp t.kind with
        | none => rfl
        | some q =>
          obtain ⟨lv, rm⟩ := q
          simp only
          rw [if_neg]
          intro hh
          have := h4 lv rm hb
          omega

theorem namespace_done {g : Region} {c : Nat} {o : Bool} {r : Seen} (h : Next g c o r) (x : Expr) :
    readNamespace g x r = some (x, r) := by
  cases r with
  | nil => rfl
  | cons u r =>
    obtain ⟨b, t⟩ := u
    rw [readNamespace.eq_def]
    dsimp only
    rw [if_neg]
    rcases h.2 with h | ⟨h1, -, -⟩
    · simp [h]
    · simp [h1]

/-! ## Kinds -/

/-- Tokens an expression may start with. -/
def starter (k : Kind) : Bool :=
  match k with
  | .lParen | .lCurly | .functionKw | .backslash | .ifKw | .forKw | .whileKw | .repeatKw
  | .stringOpen => true
  | k => (unOp k).isSome || (atomKind k).isSome

theorem starter_ne {k : Kind} (h : starter k = true) :
    k ≠ .elseKw ∧ k ≠ .rCurly ∧ k ≠ .comma ∧ k ≠ .rParen ∧ k ≠ .rBrack ∧ k ≠ .rBrack2 := by
  cases k <;> first | (revert h; decide) | decide

theorem binOp_other {k : Kind} {q : Nat × Nat} (h : binOp k = some q) :
    k ≠ .elseKw ∧ extractOp k = false ∧ namespaceOp k = false ∧ callOf k = none := by
  cases k <;> first | (revert h; simp [binOp]; done) | decide

theorem binOp_small {k : Kind} {lv rm : Nat} (h : binOp k = some (lv, rm)) :
    lv < closed ∧ rm < closed := by
  cases k <;> first | (revert h; simp [binOp]; done) | (simp [binOp] at h; unfold closed; omega)

theorem unOp_small {k : Kind} {rm : Nat} (h : unOp k = some rm) : rm < closed := by
  cases k <;> first | (revert h; simp [unOp]; done) | (simp [unOp] at h; unfold closed; omega)

theorem extractOp_other {k : Kind} (h : extractOp k = true) : k ≠ .elseKw ∧ k ≠ .equal := by
  cases k <;> first | (revert h; decide) | decide

theorem extractOp_binOp {k : Kind} (h : extractOp k = true) :
    namespaceOp k = false ∧ callOf k = none ∧ binOp k = none := by
  cases k <;> first | (revert h; decide) | decide

theorem callOf_open (k : CallKind) : callOf (openKind k) = some k := by cases k <;> rfl
theorem open_other (k : CallKind) :
    openKind k ≠ .elseKw ∧ openKind k ≠ .equal ∧ extractOp (openKind k) = false ∧
      namespaceOp (openKind k) = false ∧ binOp (openKind k) = none := by
  cases k <;> decide

/-- Tokens that close something. -/
def closer : Kind → Bool
  | .rParen | .rBrack | .rBrack2 | .rCurly | .comma | .inKw => true
  | _ => false

theorem closer_next {g : Region} {c : Nat} {o : Bool} {b : Bool} {t : Tok} {r : Seen}
    (h : closer t.kind = true) : Next g c o ((b, t) :: r) := by
  have : ∀ k, closer k = true → k ≠ .elseKw ∧ extractOp k = false ∧ namespaceOp k = false ∧
      callOf k = none ∧ binOp k = none := by
    intro k hk
    cases k <;> first | (revert hk; decide) | decide
  obtain ⟨h1, h2, h3, h4, h5⟩ := this _ h
  exact ⟨fun he => absurd he h1, .inr ⟨h3, fun _ => ⟨h2, h4⟩, fun lv rm hb => by rw [h5] at hb; cases hb⟩⟩

theorem closer_close (k : CallKind) : closer (closeKind k) = true := by cases k <;> rfl

/-! ## Names -/

theorem read_str {op cl : Token} {c : Option Token} {us rest : Seen}
    (hf : Fits ((match c with | some t => [(.forbid, outTok t)] | none => []) ++
      [(Pos.forbid, outTok cl)]) us) (h : strKinds op c cl = true) :
    readStr (bareTok op) (us ++ rest) =
      some (.str {} (bareTok op) (c.map bareTok) (bareTok cl), rest) := by
  simp only [strKinds, Bool.and_eq_true, beq_iff_eq] at h
  obtain ⟨⟨h1, h2⟩, h3⟩ := h
  cases c with
  | none =>
    obtain ⟨b, rfl, hb⟩ := fits_one hf
    have hb : b = false := hb
    simp [readStr, eatHere, h3, hb]
  | some t =>
    obtain ⟨b, u, rfl, hb, hf⟩ := fits_cons hf
    obtain ⟨b', rfl, hb'⟩ := fits_one hf
    have hb : b = false := hb
    have hb' : b' = false := hb'
    have h2 : t.kind = .stringContent := by simpa using h2
    simp [readStr, eatHere, h3, hb, hb', h2]

theorem atomKind_str {k : Kind} : atomKind .stringOpen = some k → False := by simp [atomKind]

theorem shape_str (g : Region) (a : Ann) (o : Token) (c : Option Token) (l : Token) :
    shape g (.str a o c l) = (.free, outTok o) ::
      ((match c with | some t => [(.forbid, outTok t)] | none => []) ++ [(.forbid, outTok l)]) := by
  cases c <;> rfl

/-- An atom of one of the kinds, or a string. -/
def Named (ks : List Kind) : Expr → Prop
  | .atom _ k t => atomKind t.kind = some k ∧ k ∈ ks
  | .str _ op c cl => strKinds op c cl = true
  | _ => False

/-- Reading a name, wherever it is. -/
theorem read_name {ks : List Kind} {e : Expr} {g : Region} {p : Pos} {us rest : Seen}
    (h : Named ks e) (hf : Fits (setHead p (shape g e)) us) :
    readName ks (us ++ rest) = some (e.bare, rest) := by
  cases e with
  | atom a k t =>
    obtain ⟨h1, h2⟩ := h
    obtain ⟨b, rfl, -⟩ := fits_one hf
    have hk : t.kind ≠ .stringOpen := by
      intro hk; rw [hk] at h1; exact atomKind_str h1
    simp [readName, hk, h1, h2, Expr.bare]
  | str a op c cl =>
    have h : strKinds op c cl = true := h
    rw [shape_str] at hf
    obtain ⟨b, u, rfl, -, hf⟩ := fits_cons hf
    have hk : op.kind = .stringOpen := by
      simp only [strKinds, Bool.and_eq_true, beq_iff_eq] at h
      exact h.1.1
    simp only [List.cons_append, readName, outTok_kind, hk, if_true, outTok_plain]
    rw [read_str hf h]
    rfl
  | _ => exact h.elim

theorem selector_name {e : Expr} (h : e.selector = true) :
    Named [.rIdentifier, .rDots, .rDotDotI] e := by
  cases e with
  | atom a k t => simpa [Named, Expr.selector, or_assoc] using h
  | str => exact h
  | _ => cases h

theorem argName_name {e : Expr} (h : e.argName = true) :
    Named [.rIdentifier, .rDots, .rDotDotI, .rNullExpression] e := by
  cases e with
  | atom a k t => simpa [Named, Expr.argName, or_assoc] using h
  | str => exact h
  | _ => cases h

theorem read_parName {e : Expr} (h : e.parName = true) {g : Region} {us rest : Seen}
    (hf : Fits (shape g e) us) : readParName (us ++ rest) = some (e.bare, rest) := by
  cases e with
  | atom a k t =>
    simp only [Expr.parName, Bool.and_eq_true, Bool.or_eq_true, beq_iff_eq] at h
    obtain ⟨b, rfl, -⟩ := fits_one hf
    have h2 : k ∈ [Kind.rIdentifier, .rDots, .rDotDotI] := by simpa [or_assoc] using h.2
    simp only [List.cons_append, List.nil_append, readParName, outTok_kind, h.1, outTok_plain,
      Expr.bare]
    rw [if_pos h2]
  | _ => cases h

/-! ## Monotonicity -/

theorem gram_mono (e : Expr) (h : e.gram false = true) (eq : Bool) : e.gram eq = true := by
  cases eq with
  | false => exact h
  | true =>
    match e with
    | .binary a x op y =>
      simp only [Expr.gram] at h ⊢
      split at h
      · next lv rm hb =>
        simp only [Bool.false_and, Bool.and_eq_true, Bool.or_false] at h
        simp only [Bool.true_and, Bool.and_eq_true, Bool.or_true]
        obtain ⟨⟨⟨⟨h1, h2⟩, h3⟩, h4⟩, h5⟩ := h
        exact ⟨⟨⟨⟨gram_mono x h1 _, gram_mono y h2 _⟩, h3⟩, h4⟩, trivial⟩
      · cases h
    | .atom .. | .str .. | .paren .. | .braced .. | .unary .. | .call .. | .func .. | .ite ..
    | .itee .. | .for_ .. | .while_ .. | .repeat_ .. => simpa only [Expr.gram] using h
    | .sel _ .extract .. | .sel _ .namespace .. => simpa only [Expr.gram] using h

/-! ## First tokens -/

theorem gram_starts : ∀ (e : Expr) (eq : Bool) (g : Region), e.gram eq = true →
    ∃ t r, shape g e = (.free, t) :: r ∧ starter t.kind = true
  | .atom a k t, eq, g, h => by
    simp only [Expr.gram, beq_iff_eq] at h
    refine ⟨_, _, rfl, ?_⟩
    have : ∀ k k', atomKind k = some k' → starter k = true := by
      intro k k' hk; cases k <;> first | (revert hk; simp [atomKind]; done) | decide
    exact this _ _ h
  | .str a o c l, eq, g, h => by
    simp only [Expr.gram, strKinds, Bool.and_eq_true, beq_iff_eq] at h
    exact ⟨_, _, by rw [shape_str], by rw [outTok_kind, h.1.1]; rfl⟩
  | .paren a l e r, eq, g, h => by
    simp only [Expr.gram, Bool.and_eq_true, beq_iff_eq] at h
    exact ⟨_, _, by rw [shape], by rw [outTok_kind, h.1.1]; rfl⟩
  | .braced a l e r, eq, g, h => by
    simp only [Expr.gram, Bool.and_eq_true, beq_iff_eq] at h
    exact ⟨_, _, by rw [shape], by rw [outTok_kind, h.1.1]; rfl⟩
  | .unary a o e, eq, g, h => by
    simp only [Expr.gram] at h
    refine ⟨_, _, by rw [shape], ?_⟩
    rw [outTok_kind]
    have : ∀ k r, unOp k = some r → starter k = true := by
      intro k k' hk; cases k <;> first | (revert hk; simp [unOp]; done) | decide
    cases hu : unOp o.kind with
    | none => rw [hu] at h; cases h
    | some r => exact this _ _ hu
  | .binary a x o y, eq, g, h => by
    simp only [Expr.gram] at h
    cases hu : binOp o.kind with
    | none => rw [hu] at h; cases h
    | some r =>
      rw [hu] at h
      simp only [Bool.and_eq_true] at h
      obtain ⟨t, r, h1, h2⟩ := gram_starts x _ g h.1.1.1.1
      exact ⟨t, _, by rw [shape, h1]; rfl, h2⟩
  | .sel a .extract x o y, eq, g, h => by
    simp only [Expr.gram, Bool.and_eq_true] at h
    obtain ⟨t, r, h1, h2⟩ := gram_starts x _ g h.1.1.1
    exact ⟨t, _, by rw [shape, h1]; rfl, h2⟩
  | .sel a .namespace x o y, eq, g, h => by
    simp only [Expr.gram, Bool.and_eq_true] at h
    have hx : x.gram false = true := by
      have := h.1.1
      cases x <;> simp_all [Expr.selector, Expr.gram]
    obtain ⟨t, r, h1, h2⟩ := gram_starts x _ g hx
    exact ⟨t, _, by rw [shape, h1]; rfl, h2⟩
  | .call a k f aa l items r, eq, g, h => by
    simp only [Expr.gram, Bool.and_eq_true] at h
    obtain ⟨t, r, h1, h2⟩ := gram_starts f _ g h.1.1.1.1
    exact ⟨t, _, by rw [shape, h1]; rfl, h2⟩
  | .func a kw pa l items r b, eq, g, h => by
    simp only [Expr.gram, Bool.and_eq_true, Bool.or_eq_true, beq_iff_eq] at h
    refine ⟨_, _, by rw [shape], ?_⟩
    rw [outTok_kind]
    rcases h.1.1.1.1.1 with h | h <;> rw [h] <;> rfl
  | .ite a kw l c r t, eq, g, h => by
    simp only [Expr.gram, Bool.and_eq_true, beq_iff_eq] at h
    exact ⟨_, _, by rw [shape], by rw [outTok_kind, h.1.1.1.1.1]; rfl⟩
  | .itee a kw l c r t ea el e, eq, g, h => by
    simp only [Expr.gram, Bool.and_eq_true, beq_iff_eq] at h
    exact ⟨_, _, by rw [shape], by rw [outTok_kind, h.1.1.1.1.1.1.1.1.1]; rfl⟩
  | .for_ a kw l v i s r b, eq, g, h => by
    simp only [Expr.gram, Bool.and_eq_true, beq_iff_eq] at h
    exact ⟨_, _, by rw [shape], by rw [outTok_kind, h.1.1.1.1.1.1.1]; rfl⟩
  | .while_ a kw l c r b, eq, g, h => by
    simp only [Expr.gram, Bool.and_eq_true, beq_iff_eq] at h
    exact ⟨_, _, by rw [shape], by rw [outTok_kind, h.1.1.1.1.1]; rfl⟩
  | .repeat_ a kw b, eq, g, h => by
    simp only [Expr.gram, Bool.and_eq_true, beq_iff_eq] at h
    exact ⟨_, _, by rw [shape], by rw [outTok_kind, h.1.1]; rfl⟩

/-- The first token. -/
theorem gram_first {e : Expr} {eq : Bool} {g : Region} {p : Pos} {us : Seen} (h : e.gram eq = true)
    (hf : Fits (setHead p (shape g e)) us) :
    ∃ b t us', us = (b, t) :: us' ∧ starter t.kind = true ∧ p.Ok b ∧ Fits (shape g e) us := by
  obtain ⟨t, r, h1, h2⟩ := gram_starts e eq g h
  rw [h1] at hf ⊢
  obtain ⟨b, u, rfl, hb, hf⟩ := fits_cons hf
  exact ⟨b, t, u, rfl, h2, hb, rfl, trivial, hf⟩

theorem headFree {e : Expr} {eq : Bool} {g : Region} (h : e.gram eq = true) :
    setHead .free (shape g e) = shape g e := by
  obtain ⟨t, r, h1, h2⟩ := gram_starts e eq g h
  rw [h1]; rfl

/-! ## No name followed by `=` -/

theorem atom_name {t : Tok} {ks : List Kind} {b : Bool} {r : Seen} {x : Expr} {ts : Seen}
    (h : readName ks ((b, t) :: r) = some (x, ts)) (hk : t.kind ≠ .stringOpen) : ts = r := by
  simp only [readName, if_neg hk] at h
  split at h
  · split at h
    · cases h; rfl
    · cases h
  · cases h

theorem not_name {t : Tok} {ks : List Kind} {b : Bool} {r : Seen}
    (h1 : t.kind ≠ .stringOpen) (h2 : atomKind t.kind = none) : readName ks ((b, t) :: r) = none := by
  simp only [readName, if_neg h1, h2]

theorem eat_none {k : Kind} {r : Seen} (h : nextIn [k] r = false) : eat k r = none := by
  cases r with
  | nil => rfl
  | cons u r =>
    simp only [nextIn] at h
    simp only [eat]
    rw [if_neg]
    intro hk
    simp [hk] at h

theorem nameEq_none {r : Seen}
    (h : ∀ x ts, readName [.rIdentifier, .rDots, .rDotDotI, .rNullExpression] r = some (x, ts) →
      nextIn [.equal] ts = false) : readNameEq r = none := by
  unfold readNameEq
  cases hr : readName [.rIdentifier, .rDots, .rDotDotI, .rNullExpression] r with
  | none => rfl
  | some q =>
    obtain ⟨x, ts⟩ := q
    simp [eat_none (h x ts hr)]

theorem no_nameEq : ∀ (e : Expr) (us rest : Seen) (ks : List Kind), e.gram false = true →
    Fits (shape .paren e) us → nextIn [.equal] rest = false → ∀ x ts,
    readName ks (us ++ rest) = some (x, ts) → nextIn [.equal] ts = false
  | .atom a k t, us, rest, ks, h, hf, hr, x, ts, hx => by
    obtain ⟨b, rfl, -⟩ := fits_one hf
    simp only [Expr.gram, beq_iff_eq] at h
    rw [atom_name hx]
    · exact hr
    · intro hk; rw [outTok_kind] at hk; rw [hk] at h; exact atomKind_str h
  | .str a o c l, us, rest, ks, h, hf, hr, x, ts, hx => by
    have := read_name (ks := ks) (e := .str a o c l) (g := .paren) (p := .free) (us := us) (rest := rest)
      (by simpa only [Expr.gram, Named] using h) (by simpa [shape, setHead] using hf)
    rw [this] at hx
    cases hx
    exact hr
  | .paren a l e r, us, rest, ks, h, hf, hr, x, ts, hx => by
    simp only [Expr.gram, Bool.and_eq_true, beq_iff_eq] at h
    rw [shape] at hf
    obtain ⟨b, u, rfl, -, hf⟩ := fits_cons hf
    rw [List.cons_append, not_name] at hx
    · cases hx
    all_goals rw [outTok_kind, h.1.1]; decide
  | .braced a l e r, us, rest, ks, h, hf, hr, x, ts, hx => by
    simp only [Expr.gram, Bool.and_eq_true, beq_iff_eq] at h
    rw [shape] at hf
    obtain ⟨b, u, rfl, -, hf⟩ := fits_cons hf
    rw [List.cons_append, not_name] at hx
    · cases hx
    all_goals rw [outTok_kind, h.1.1]; decide
  | .unary a o e, us, rest, ks, h, hf, hr, x, ts, hx => by
    rw [shape] at hf
    obtain ⟨b, u, rfl, -, hf⟩ := fits_cons hf
    have : ∀ k r, unOp k = some r → k ≠ .stringOpen ∧ atomKind k = none := by
      intro k k' hk; cases k <;> first | (revert hk; simp [unOp]; done) | decide
    simp only [Expr.gram] at h
    cases hu : unOp o.kind with
    | none => rw [hu] at h; cases h
    | some r =>
      rw [List.cons_append, not_name] at hx
      · cases hx
      · exact (this _ _ hu).1
      · exact (this _ _ hu).2
  | .binary a y o z, us, rest, ks, h, hf, hr, x, ts, hx => by
    rw [shape] at hf
    obtain ⟨u, v, rfl, hu, hv⟩ := fits_app hf
    obtain ⟨b, w, rfl, -, hw⟩ := fits_cons hv
    simp only [Expr.gram] at h
    cases hb : binOp o.kind with
    | none => rw [hb] at h; cases h
    | some r =>
      rw [hb] at h
      simp only [Bool.and_eq_true, Bool.false_and, Bool.or_false, bne_iff_ne, ne_eq] at h
      rw [List.append_assoc] at hx
      refine no_nameEq y u _ ks h.1.1.1.1 hu ?_ x ts hx
      simp only [List.cons_append, nextIn, outTok_kind]
      simpa using h.2
  | .sel a .extract y o z, us, rest, ks, h, hf, hr, x, ts, hx => by
    rw [shape] at hf
    obtain ⟨u, v, rfl, hu, hv⟩ := fits_app hf
    obtain ⟨b, w, rfl, -, hw⟩ := fits_cons hv
    simp only [Expr.gram, Bool.and_eq_true] at h
    rw [List.append_assoc] at hx
    refine no_nameEq y u _ ks h.1.1.1 hu ?_ x ts hx
    simp only [List.cons_append, nextIn, outTok_kind]
    have := (extractOp_other h.1.2).2
    simpa using this
  | .sel a .namespace y o z, us, rest, ks, h, hf, hr, x, ts, hx => by
    rw [shape] at hf
    obtain ⟨u, v, rfl, hu, hv⟩ := fits_app hf
    obtain ⟨b, w, rfl, -, hw⟩ := fits_cons hv
    simp only [Expr.gram, Bool.and_eq_true] at h
    have hy : y.gram false = true := by
      have := h.1.1
      cases y <;> simp_all [Expr.selector, Expr.gram]
    rw [List.append_assoc] at hx
    refine no_nameEq y u _ ks hy hu ?_ x ts hx
    simp only [List.cons_append, nextIn, outTok_kind]
    have : ∀ k, namespaceOp k = true → k ≠ .equal := by
      intro k hk; cases k <;> first | (revert hk; decide) | decide
    have := this _ h.1.2
    simpa using this
  | .call a k f aa l items r, us, rest, ks, h, hf, hr, x, ts, hx => by
    rw [shape] at hf
    obtain ⟨u, v, rfl, hu, hv⟩ := fits_app hf
    obtain ⟨b, w, rfl, -, hw⟩ := fits_cons hv
    simp only [Expr.gram, Bool.and_eq_true, beq_iff_eq] at h
    rw [List.append_assoc] at hx
    refine no_nameEq f u _ ks h.1.1.1.1 hu ?_ x ts hx
    simp only [List.cons_append, nextIn, outTok_kind]
    rw [h.1.1.2]
    cases k <;> rfl
  | .func a kw pa l items r bd, us, rest, ks, h, hf, hr, x, ts, hx => by
    simp only [Expr.gram, Bool.and_eq_true, Bool.or_eq_true, beq_iff_eq] at h
    rw [shape] at hf
    obtain ⟨b, u, rfl, -, hf⟩ := fits_cons hf
    rw [List.cons_append, not_name] at hx
    · cases hx
    all_goals rw [outTok_kind]; rcases h.1.1.1.1.1 with h | h <;> rw [h] <;> decide
  | .ite a kw l c r t, us, rest, ks, h, hf, hr, x, ts, hx => by
    simp only [Expr.gram, Bool.and_eq_true, beq_iff_eq] at h
    rw [shape] at hf
    obtain ⟨b, u, rfl, -, hf⟩ := fits_cons hf
    rw [List.cons_append, not_name] at hx
    · cases hx
    all_goals rw [outTok_kind, h.1.1.1.1.1]; decide
  | .itee a kw l c r t ea el e, us, rest, ks, h, hf, hr, x, ts, hx => by
    simp only [Expr.gram, Bool.and_eq_true, beq_iff_eq] at h
    rw [shape] at hf
    obtain ⟨b, u, rfl, -, hf⟩ := fits_cons hf
    rw [List.cons_append, not_name] at hx
    · cases hx
    all_goals rw [outTok_kind, h.1.1.1.1.1.1.1.1.1]; decide
  | .for_ a kw l v i s r bd, us, rest, ks, h, hf, hr, x, ts, hx => by
    simp only [Expr.gram, Bool.and_eq_true, beq_iff_eq] at h
    rw [shape] at hf
    obtain ⟨b, u, rfl, -, hf⟩ := fits_cons hf
    rw [List.cons_append, not_name] at hx
    · cases hx
    all_goals rw [outTok_kind, h.1.1.1.1.1.1.1]; decide
  | .while_ a kw l c r bd, us, rest, ks, h, hf, hr, x, ts, hx => by
    simp only [Expr.gram, Bool.and_eq_true, beq_iff_eq] at h
    rw [shape] at hf
    obtain ⟨b, u, rfl, -, hf⟩ := fits_cons hf
    rw [List.cons_append, not_name] at hx
    · cases hx
    all_goals rw [outTok_kind, h.1.1.1.1.1]; decide
  | .repeat_ a kw bd, us, rest, ks, h, hf, hr, x, ts, hx => by
    simp only [Expr.gram, Bool.and_eq_true, beq_iff_eq] at h
    rw [shape] at hf
    obtain ⟨b, u, rfl, -, hf⟩ := fits_cons hf
    rw [List.cons_append, not_name] at hx
    · cases hx
    all_goals rw [outTok_kind, h.1.1]; decide

end Verif.Format
