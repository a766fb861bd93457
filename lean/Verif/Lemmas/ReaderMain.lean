import Verif.Lemmas.Reader

/-!
# The reader finds every program (continued)
-/

namespace Verif.Format
open Verif.Syntax

theorem of_prefix {n : Nat} {g : Region} {eq : Bool} {p : Nat} {us rest : Seen} {x : Expr}
    (hn : 3 * us.length ≤ n) (hu : 1 ≤ us.length)
    (h : ∀ k, n = k + 2 → readPrefix (k + 1) g (us ++ rest) = some (x, rest)) :
    ∃ m, n ≤ m + 3 * us.length ∧ readExpr n g eq p (us ++ rest) = readLoop m g eq p x rest := by
  obtain ⟨k, rfl⟩ : ∃ k, n = k + 2 := ⟨n - 2, by omega⟩
  refine ⟨k + 1, by omega, ?_⟩
  rw [readExpr, h k rfl]
  rfl

theorem done_of {n : Nat} {g : Region} {eq : Bool} {p c : Nat} {o : Bool} {us rest : Seen} {x : Expr}
    (h : ∃ m, n ≤ m + 3 * us.length ∧ readExpr n g eq p (us ++ rest) = readLoop m g eq p x rest)
    (hn : 3 * us.length + 1 ≤ n) (hN : Next g c o rest) (hc : c ≤ p)
    (hp : p < closed) :
    readExpr n g eq p (us ++ rest) = some (x, rest) := by
  obtain ⟨m, hm, e⟩ := h
  rw [e]
  exact loop_done hN hc hp eq x (by omega)

theorem atom_prefix {k : Kind} {k' : Kind} (h : atomKind k = some k') (n : Nat) (g : Region) (b : Bool)
    (t : Tok) (ht : t.kind = k) (ts : Seen) :
    readPrefix (n + 1) g ((b, t) :: ts) = readNamespace g (.atom {} k' t.plain) ts := by
  have hu : unOp k = none := by
    cases k <;> first | (revert h; simp [atomKind]; done) | rfl
  rw [readPrefix]
  simp only [ht]
  split
  all_goals first | (simp [atomKind] at h; done) | (simp only [hu, h])

theorem unary_prefix {k : Kind} {rm : Nat} (h : unOp k = some rm) (n : Nat) (g : Region) (b : Bool)
    (t : Tok) (ht : t.kind = k) (ts : Seen) :
    readPrefix (n + 1) g ((b, t) :: ts) = (do
      let (e, ts) ← readExpr n g (k == .wat) rm ts
      return (.unary {} t.plain e, ts)) := by
  rw [readPrefix]
  simp only [ht]
  split
  all_goals first | (simp [unOp] at h; done) | (simp only [h])

theorem eat_cons {k : Kind} {b : Bool} {t : Tok} {r : Seen} (h : t.kind = k) :
    eat k ((b, t) :: r) = some (t.plain, r) := by
  simp [eat, h]

theorem nextIn_false {ks : List Kind} {b : Bool} {t : Tok} {r : Seen} (h : t.kind ∉ ks) :
    nextIn ks ((b, t) :: r) = false := by
  simp only [nextIn]
  simpa using h

theorem nextIn_true {ks : List Kind} {b : Bool} {t : Tok} {r : Seen} (h : t.kind ∈ ks) :
    nextIn ks ((b, t) :: r) = true := by
  simp only [nextIn]
  simpa using h

/-- An atom or a string. -/
def Simple : Expr → Prop
  | .atom .. => True
  | .str .. => True
  | _ => False

/-- Reading an atom or a string at the start of an expression. -/
theorem selector_prefix {e : Expr} {g : Region} {us rest : Seen} (h : e.gram false = true)
    (ha : Simple e)
    (hf : Fits (shape g e) us) (n : Nat) :
    us.length ≥ 1 ∧ readPrefix (n + 1) g (us ++ rest) = readNamespace g e.bare rest := by
  cases e with
  | atom a k t =>
    simp only [Expr.gram, beq_iff_eq] at h
    obtain ⟨b, rfl, -⟩ := fits_one hf
    exact ⟨by simp, atom_prefix h n g b (outTok t) rfl rest⟩
  | str a o c l =>
    have hk : o.kind = .stringOpen := by
      simp only [Expr.gram, strKinds, Bool.and_eq_true, beq_iff_eq] at h
      exact h.1.1
    rw [shape_str] at hf
    obtain ⟨b, u, rfl, -, hf⟩ := fits_cons hf
    refine ⟨by simp, ?_⟩
    rw [List.cons_append, readPrefix]
    simp only [outTok_kind, hk, outTok_plain]
    rw [read_str hf (by simpa only [Expr.gram] using h)]
    rfl
  | _ => exact ha.elim

theorem selector_gram {e : Expr} (h : e.selector = true) : e.gram false = true ∧ Simple e := by
  cases e with
  | atom a k t =>
    simp only [Expr.selector, Bool.and_eq_true] at h
    exact ⟨h.1, trivial⟩
  | str => exact ⟨h, trivial⟩
  | _ => cases h

theorem bare_selector {e : Expr} (h : e.selector = true) : e.bare.selector = true := by
  cases e with
  | atom a k t => exact h
  | str a o c l =>
    simp only [Expr.selector, strKinds, Bool.and_eq_true, beq_iff_eq] at h
    cases c with
    | none => simpa [Expr.bare, Expr.selector, strKinds, bareTok, Tok.plain] using h
    | some t => simpa [Expr.bare, Expr.selector, strKinds, bareTok, Tok.plain] using h
  | _ => cases h

theorem min_left {a b : Nat} : min a b ≤ a := Nat.min_le_left ..
theorem min_right {a b : Nat} : min a b ≤ b := Nat.min_le_right ..

theorem argName_gram {e : Expr} (h : e.argName = true) : e.gram false = true := by
  cases e with
  | atom a k t =>
    simp only [Expr.argName, Bool.and_eq_true] at h
    exact h.1
  | str => exact h
  | _ => cases h

theorem parName_gram {e : Expr} (h : e.parName = true) : e.gram false = true := by
  cases e with
  | atom a k t =>
    simp only [Expr.parName, Bool.and_eq_true] at h
    exact h.1
  | _ => cases h

/-- The first token of an argument. -/
theorem arg_first {x : Arg} {us : Seen} (hg : x.gramArg = true) (hf : Fits (shapeArg x) us)
    (hx : x.isHole = false) (k : CallKind) :
    ∃ b t us', us = (b, t) :: us' ∧ t.kind ≠ .comma ∧ t.kind ≠ closeKind k := by
  have go : ∀ (e : Expr) (r : List (Pos × Tok)), e.gram false = true →
      Fits (shape .paren e ++ r) us →
      ∃ b t us', us = (b, t) :: us' ∧ t.kind ≠ .comma ∧ t.kind ≠ closeKind k := by
    intro e r he hf
    obtain ⟨u, v, rfl, hu, hv⟩ := fits_app hf
    rw [← headFree he] at hu
    obtain ⟨b, t, u', rfl, hs, -, -⟩ := gram_first he hu
    obtain ⟨-, -, h1, h2, h3, h4⟩ := starter_ne hs
    exact ⟨b, t, _, rfl, h1, by cases k <;> assumption⟩
  cases x with
  | hole => cases hx
  | val a e => exact go e [] hg (by simpa [shapeArg] using hf)
  | name a na n q =>
    simp only [Arg.gramArg, Bool.and_eq_true] at hg
    exact go n _ (argName_gram hg.1) hf
  | named a na n q e =>
    simp only [Arg.gramArg, Bool.and_eq_true] at hg
    exact go n _ (argName_gram hg.1.1) hf
  | pdef => cases hg

mutual
theorem read_expr : ∀ (e : Expr) (g : Region) (eq : Bool) (p : Nat) (us rest : Seen) (n : Nat),
    e.gram eq = true → p ≤ e.llow → Fits (shape g e) us → Next g e.rcap e.openIf rest →
    3 * us.length ≤ n →
    ∃ m, n ≤ m + 3 * us.length ∧
      readExpr n g eq p (us ++ rest) = readLoop m g eq p e.bare rest
  | .atom a k t, g, eq, p, us, rest, n, hg, hp, hf, hN, hn => by
    have hg' : (Expr.atom a k t).gram false = true := hg
    refine of_prefix hn (selector_prefix (rest := rest) hg' trivial hf 0).1 fun j hj => ?_
    rw [(selector_prefix hg' trivial hf j).2, namespace_done hN]
  | .str a o c l, g, eq, p, us, rest, n, hg, hp, hf, hN, hn => by
    have hg' : (Expr.str a o c l).gram false = true := hg
    refine of_prefix hn (selector_prefix (rest := rest) hg' trivial hf 0).1 fun j hj => ?_
    rw [(selector_prefix hg' trivial hf j).2, namespace_done hN]
  | .paren a l e r, g, eq, p, us, rest, n, hg, hp, hf, hN, hn => by
    simp only [Expr.gram, Bool.and_eq_true, beq_iff_eq] at hg
    obtain ⟨⟨h1, h2⟩, h3⟩ := hg
    rw [shape] at hf
    obtain ⟨b, u, rfl, -, hf⟩ := fits_cons hf
    obtain ⟨v, w, rfl, hv, hw⟩ := fits_app hf
    obtain ⟨b', rfl, -⟩ := fits_one hw
    simp only [List.length_cons, List.length_append, List.length_nil] at hn
    refine of_prefix (by simpa using hn) (by simp) fun j hj => ?_
    rw [List.cons_append, readPrefix]
    simp only [outTok_kind, h1, outTok_plain, List.append_assoc, List.cons_append, List.nil_append]
    have hc : Next .paren 0 true ((b', outTok r) :: rest) :=
      closer_next (by rw [outTok_kind, h3]; rfl)
    rw [done_of (read_expr e .paren true 0 v _ j h2 (Nat.zero_le _) hv
      (hc.mono (Nat.zero_le _) fun _ => rfl) (by omega)) (by omega) hc (Nat.le_refl _) (by decide)]
    simp [eat_cons, h3, Expr.bare]
  | .braced a l es r, g, eq, p, us, rest, n, hg, hp, hf, hN, hn => by
    simp only [Expr.gram, Bool.and_eq_true, beq_iff_eq] at hg
    obtain ⟨⟨h1, h2⟩, h3⟩ := hg
    rw [shape] at hf
    obtain ⟨b, u, rfl, -, hf⟩ := fits_cons hf
    obtain ⟨v, w, rfl, hv, hw⟩ := fits_app hf
    obtain ⟨b', rfl, -⟩ := fits_one hw
    simp only [List.length_cons, List.length_append, List.length_nil] at hn
    refine of_prefix (by simpa using hn) (by simp) fun j hj => ?_
    rw [List.cons_append, readPrefix]
    simp only [outTok_kind, h1, outTok_plain, List.append_assoc, List.cons_append, List.nil_append]
    rw [read_stmts es .brace .free v ((b', outTok r) :: rest) j (by decide) h2 hv
      (.inr ⟨b', outTok r, rest, rfl, h3⟩) (by omega)]
    simp [eat_cons, h3, Expr.bare]
  | .unary a op e, g, eq, p, us, rest, n, hg, hp, hf, hN, hn => by
    simp only [Expr.gram] at hg
    cases hu : unOp op.kind with
    | none => rw [hu] at hg; cases hg
    | some rm =>
      rw [hu] at hg
      simp only [Bool.and_eq_true, decide_eq_true_eq] at hg
      obtain ⟨h1, h2⟩ := hg
      rw [shape] at hf
      obtain ⟨b, u, rfl, -, hf⟩ := fits_cons hf
      simp only [List.length_cons] at hn
      refine of_prefix (by simpa using hn) (by simp) fun j hj => ?_
      have hcap : (Expr.unary a op e).rcap = min rm e.rcap := by rw [Expr.rcap, hu]; rfl
      rw [hcap] at hN
      rw [List.cons_append, unary_prefix hu j g b (outTok op) rfl,
        done_of (read_expr e g _ rm u rest j h1 h2 hf (hN.mono min_right id) (by omega))
          (by omega) hN min_left (unOp_small hu)]
      rfl
  | .binary a x op y, g, eq, p, us, rest, n, hg, hp, hf, hN, hn => by
    simp only [Expr.gram] at hg
    cases hb : binOp op.kind with
    | none => rw [hb] at hg; cases hg
    | some q =>
      obtain ⟨lv, rm⟩ := q
      rw [hb] at hg
      simp only [Bool.and_eq_true, decide_eq_true_eq, Bool.or_eq_true, bne_iff_ne, ne_eq] at hg
      obtain ⟨⟨⟨⟨h1, h2⟩, h3⟩, h4⟩, h5⟩ := hg
      rw [shape] at hf
      obtain ⟨ux, v, rfl, hx, hv⟩ := fits_app hf
      obtain ⟨b, uy, rfl, hbp, hy⟩ := fits_cons hv
      have hcap : (Expr.binary a x op y).rcap = min rm y.rcap := by rw [Expr.rcap, hb]; rfl
      have hlow : (Expr.binary a x op y).llow = min lv x.llow := by rw [Expr.llow, hb]; rfl
      rw [hcap] at hN
      rw [hlow] at hp
      simp only [List.length_cons, List.length_append] at hn
      have hend := op_ends hbp
      obtain ⟨o1, o2, o3, o4⟩ := binOp_other hb
      have hx1 : x.gram eq = true := by
        cases eq with
        | false => simpa using h1
        | true =>
          simp only [Bool.true_and] at h1
          cases ho : opEq op.kind with
          | true => rwa [ho] at h1
          | false => rw [ho] at h1; exact gram_mono x h1 _
      obtain ⟨m, hm, e1⟩ := read_expr x g eq p ux ((b, outTok op) :: (uy ++ rest)) n hx1
        (by omega) hx
        ⟨fun he => absurd he o1, .inr ⟨o3, fun _ => ⟨o2, o4⟩, fun lv' rm' hb' => by
          rw [outTok_kind, hb] at hb'; cases hb'; exact h3⟩⟩ (by omega)
      obtain ⟨m, rfl⟩ : ∃ k, m = k + 1 := ⟨m - 1, by omega⟩
      refine ⟨m, by simp only [List.length_cons, List.length_append]; omega, ?_⟩
      rw [List.append_assoc, List.cons_append, e1, readLoop, if_neg (by rw [hend]; decide)]
      simp only [outTok_kind, o2, o4, hb, outTok_plain]
      have hif : p ≤ lv ∧ (op.kind = .equal → eq = true) :=
        ⟨by omega, fun he => h5.resolve_left fun hne => hne he⟩
      rw [if_neg (by decide)]
      refine (if_pos hif).trans ?_
      rw [done_of (read_expr y g _ rm uy rest m h2 h4 hy (hN.mono min_right id) (by omega))
          (by omega) hN min_left (binOp_small hb).2]
      rfl
  | .sel a .extract x op y, g, eq, p, us, rest, n, hg, hp, hf, hN, hn => by
    simp only [Expr.gram, Bool.and_eq_true, decide_eq_true_eq] at hg
    obtain ⟨⟨⟨h1, h2⟩, h3⟩, h4⟩ := hg
    rw [shape] at hf
    obtain ⟨ux, v, rfl, hx, hv⟩ := fits_app hf
    obtain ⟨b, uy, rfl, hbp, hy⟩ := fits_cons hv
    simp only [List.length_cons, List.length_append] at hn
    have hend := op_ends hbp
    obtain ⟨o2, o3, o4⟩ := extractOp_binOp h3
    have hnx : Next g x.rcap x.openIf ((b, outTok op) :: (uy ++ rest)) :=
      ⟨fun he => absurd he (extractOp_other h3).1, .inr ⟨o2, fun hl => by omega, fun lv rm hb => by
        rw [outTok_kind, o4] at hb; cases hb⟩⟩
    obtain ⟨m, hm, e1⟩ := read_expr x g eq p ux ((b, outTok op) :: (uy ++ rest)) n (gram_mono x h1 _)
      hp hx hnx (by omega)
    obtain ⟨m, rfl⟩ : ∃ k, m = k + 1 := ⟨m - 1, by omega⟩
    refine ⟨m, by simp only [List.length_cons, List.length_append]; omega, ?_⟩
    rw [List.append_assoc, List.cons_append, e1, readLoop, if_neg (by rw [hend]; decide)]
    simp only [outTok_kind, h3, if_true, outTok_plain]
    rw [← headFree (selector_gram h4).1] at hy
    rw [read_name (selector_name h4) hy]
    rfl
  | .sel a .namespace x op y, g, eq, p, us, rest, n, hg, hp, hf, hN, hn => by
    simp only [Expr.gram, Bool.and_eq_true] at hg
    obtain ⟨⟨h1, h2⟩, h3⟩ := hg
    rw [shape] at hf
    obtain ⟨ux, v, rfl, hx, hv⟩ := fits_app hf
    obtain ⟨b, uy, rfl, hbp, hy⟩ := fits_cons hv
    have hend := op_ends hbp
    obtain ⟨g1, g2⟩ := selector_gram h1
    refine of_prefix hn (by simp; omega) fun j hj => ?_
    rw [List.append_assoc, List.cons_append, (selector_prefix g1 g2 hx j).2, readNamespace.eq_def]
    dsimp only
    rw [if_pos (by simp [h2, bare_selector h1, hend])]
    obtain ⟨b', t', uy', rfl, hs, hb', -⟩ := gram_first (selector_gram h3).1 hy
    have hend' := op_ends hb'
    dsimp only [List.cons_append]
    rw [if_neg (by simp [hend']), ← List.cons_append, read_name (selector_name h3) hy]
    rfl
  | .call a k f aa l items r, g, eq, p, us, rest, n, hg, hp, hf, hN, hn => by
    simp only [Expr.gram, Bool.and_eq_true, decide_eq_true_eq, beq_iff_eq] at hg
    obtain ⟨⟨⟨⟨h1, h2⟩, h3⟩, h4⟩, h5⟩ := hg
    rw [shape] at hf
    obtain ⟨ux, v, rfl, hx, hv⟩ := fits_app hf
    obtain ⟨b, u, rfl, hbp, hu⟩ := fits_cons hv
    obtain ⟨w, z, rfl, hw, hz⟩ := fits_app hu
    obtain ⟨b', rfl, -⟩ := fits_one hz
    simp only [List.length_cons, List.length_append, List.length_nil] at hn
    have hend := op_ends hbp
    obtain ⟨o1, o2, o3, o4, o5⟩ := open_other k
    have hnx : Next g f.rcap f.openIf ((b, outTok l) :: ((w ++ [(b', outTok r)]) ++ rest)) :=
      ⟨fun he => absurd (h3.symm.trans he) o1, .inr ⟨by rw [outTok_kind, h3]; exact o4,
        fun hl => by omega, fun lv rm hb => by rw [outTok_kind, h3, o5] at hb; cases hb⟩⟩
    obtain ⟨m, hm, e1⟩ := read_expr f g eq p ux _ n (gram_mono f h1 _) hp hx hnx (by omega)
    obtain ⟨m, rfl⟩ : ∃ k, m = k + 1 := ⟨m - 1, by omega⟩
    refine ⟨m, by simp only [List.length_cons, List.length_append, List.length_nil]; omega, ?_⟩
    rw [List.append_assoc, List.cons_append, e1, readLoop, if_neg (by rw [hend]; decide)]
    simp only [outTok_kind, h3, o3, callOf_open, outTok_plain, List.append_assoc, List.cons_append,
      List.nil_append]
    rw [if_neg (by decide),
      read_args items true k w ((b', outTok r) :: rest) m h4 hw ⟨b', outTok r, rest, rfl, h5⟩
        (by omega)]
    simp [eat_cons, h5, Expr.bare]
  | .func a kw pa l items r bd, g, eq, p, us, rest, n, hg, hp, hf, hN, hn => by
    simp only [Expr.gram, Bool.and_eq_true, decide_eq_true_eq, beq_iff_eq, Bool.or_eq_true] at hg
    obtain ⟨⟨⟨⟨⟨h1, h2⟩, h3⟩, h4⟩, h5⟩, h6⟩ := hg
    rw [shape] at hf
    obtain ⟨b1, u1, rfl, -, hf⟩ := fits_cons hf
    obtain ⟨b2, u2, rfl, -, hf⟩ := fits_cons hf
    obtain ⟨w, z, rfl, hw, hf⟩ := fits_app hf
    obtain ⟨b3, v, rfl, -, hf⟩ := fits_cons hf
    simp only [List.length_cons, List.length_append] at hn
    refine of_prefix (by simpa using hn) (by simp) fun j hj => ?_
    rw [Expr.rcap, Expr.openIf] at hN
    have hp : readPars j true (w ++ ((b3, outTok r) :: (v ++ rest))) =
        some (items.bare, (b3, outTok r) :: (v ++ rest)) :=
      read_pars items true w _ j h3 hw ⟨b3, outTok r, _, rfl, h4⟩ (by omega)
    have hbd := done_of (read_expr bd g true bodyOp v rest j h5 h6 hf (hN.mono min_right id)
      (by omega)) (by omega) hN min_left (by decide)
    rw [List.cons_append, readPrefix]
    rcases h1 with h1 | h1 <;>
    · simp only [outTok_kind, h1, outTok_plain, List.append_assoc, List.cons_append]
      simp [eat_cons, h2, hp, h4, hbd, Expr.bare]
  | .ite a kw l c r t, g, eq, p, us, rest, n, hg, hp, hf, hN, hn => by
    simp only [Expr.gram, Bool.and_eq_true, decide_eq_true_eq, beq_iff_eq] at hg
    obtain ⟨⟨⟨⟨⟨h1, h2⟩, h3⟩, h4⟩, h5⟩, h6⟩ := hg
    rw [shape] at hf
    obtain ⟨b1, u1, rfl, -, hf⟩ := fits_cons hf
    obtain ⟨b2, u2, rfl, -, hf⟩ := fits_cons hf
    obtain ⟨w, z, rfl, hw, hf⟩ := fits_app hf
    obtain ⟨b3, v, rfl, -, hf⟩ := fits_cons hf
    simp only [List.length_cons, List.length_append] at hn
    refine of_prefix (by simpa using hn) (by simp) fun j hj => ?_
    rw [Expr.rcap, Expr.openIf] at hN
    have hc : Next .paren 0 true ((b3, outTok r) :: (v ++ rest)) :=
      closer_next (by rw [outTok_kind, h4]; rfl)
    have hcd := done_of (read_expr c .paren false 0 w _ j h3 (Nat.zero_le _) hw
      (hc.mono (Nat.zero_le _) fun _ => rfl) (by omega)) (by omega) hc (Nat.le_refl _) (by decide)
    have hbd := done_of (read_expr t g true bodyOp v rest j h5 h6 hf (hN.mono min_right fun _ => rfl)
      (by omega)) (by omega) hN min_left (by decide)
    rw [List.cons_append, readPrefix]
    simp only [outTok_kind, h1, outTok_plain, List.append_assoc, List.cons_append]
    simp [eat_cons, h2, hcd, h4, hbd, Expr.bare]
    cases rest with
    | nil => rfl
    | cons q rest =>
      obtain ⟨bq, q⟩ := q
      have : q.kind ≠ .elseKw := fun he => by have := hN.1 he; cases this
      simp [this]
  | .itee a kw l c r t ea el e, g, eq, p, us, rest, n, hg, hp, hf, hN, hn => by
    simp only [Expr.gram, Bool.and_eq_true, decide_eq_true_eq, beq_iff_eq, Bool.not_eq_true'] at hg
    obtain ⟨⟨⟨⟨⟨⟨⟨⟨⟨h1, h2⟩, h3⟩, h4⟩, h5⟩, h6⟩, h7⟩, h8⟩, h9⟩, h10⟩ := hg
    rw [shape] at hf
    obtain ⟨b1, u1, rfl, -, hf⟩ := fits_cons hf
    obtain ⟨b2, u2, rfl, -, hf⟩ := fits_cons hf
    obtain ⟨w, z, rfl, hw, hf⟩ := fits_app hf
    obtain ⟨b3, v, rfl, -, hf⟩ := fits_cons hf
    obtain ⟨v, y, rfl, hv, hf⟩ := fits_app hf
    obtain ⟨b4, y, rfl, hb4, hf⟩ := fits_cons hf
    simp only [List.length_cons, List.length_append] at hn
    refine of_prefix (by simpa using hn) (by simp) fun j hj => ?_
    rw [Expr.rcap, Expr.openIf] at hN
    have hc : Next .paren 0 true ((b3, outTok r) :: (v ++ (b4, outTok el) :: (y ++ rest))) :=
      closer_next (by rw [outTok_kind, h4]; rfl)
    have hcd := done_of (read_expr c .paren false 0 w _ j h3 (Nat.zero_le _) hw
      (hc.mono (Nat.zero_le _) fun _ => rfl) (by omega)) (by omega) hc (Nat.le_refl _) (by decide)
    have he : Next g 0 false ((b4, outTok el) :: (y ++ rest)) :=
      ⟨fun _ => rfl, .inr ⟨by rw [outTok_kind, h8]; rfl,
        fun _ => by rw [outTok_kind, h8]; exact ⟨rfl, rfl⟩,
        fun lv rm hb => by rw [outTok_kind, h8] at hb; cases hb⟩⟩
    have htd := done_of (read_expr t g true bodyOp v _ j h5 h6 hv
      (he.mono (Nat.zero_le _) fun h => by rw [h7] at h; cases h) (by omega)) (by omega) he
      (Nat.zero_le _) (by decide)
    have hbd := done_of (read_expr e g true bodyOp y rest j h9 h10 hf (hN.mono min_right id)
      (by omega)) (by omega) hN min_left (by decide)
    have hg4 : g = .top → b4 = false := by
      intro hg; rw [hg] at hb4; exact hb4
    rw [List.cons_append, readPrefix]
    simp only [outTok_kind, h1, outTok_plain, List.append_assoc, List.cons_append]
    simp [eat_cons, h2, hcd, h4, htd, h8, hbd, Expr.bare]
    exact hg4
  | .for_ a kw l v i s r bd, g, eq, p, us, rest, n, hg, hp, hf, hN, hn => by
    simp only [Expr.gram, Bool.and_eq_true, decide_eq_true_eq, beq_iff_eq] at hg
    obtain ⟨⟨⟨⟨⟨⟨⟨h1, h2⟩, h3⟩, h4⟩, h5⟩, h6⟩, h7⟩, h8⟩ := hg
    rw [shape] at hf
    obtain ⟨b1, u1, rfl, -, hf⟩ := fits_cons hf
    obtain ⟨b2, u2, rfl, -, hf⟩ := fits_cons hf
    obtain ⟨uv, z, rfl, huv, hf⟩ := fits_app hf
    obtain ⟨b3, v', rfl, -, hf⟩ := fits_cons hf
    obtain ⟨w, z, rfl, hw, hf⟩ := fits_app hf
    obtain ⟨b4, y, rfl, -, hf⟩ := fits_cons hf
    simp only [List.length_cons, List.length_append] at hn
    refine of_prefix (by simpa using hn) (by simp) fun j hj => ?_
    rw [Expr.rcap, Expr.openIf] at hN
    have hc : Next .paren 0 true ((b4, outTok r) :: (y ++ rest)) :=
      closer_next (by rw [outTok_kind, h6]; rfl)
    have hcd := done_of (read_expr s .paren false 0 w _ j h5 (Nat.zero_le _) hw
      (hc.mono (Nat.zero_le _) fun _ => rfl) (by omega)) (by omega) hc (Nat.le_refl _) (by decide)
    have hbd := done_of (read_expr bd g true bodyOp y rest j h7 h8 hf (hN.mono min_right id)
      (by omega)) (by omega) hN min_left (by decide)
    have hvd := read_parName h3 (rest := (b3, outTok i) :: (w ++ (b4, outTok r) :: (y ++ rest))) huv
    rw [List.cons_append, readPrefix]
    simp only [outTok_kind, h1, outTok_plain, List.append_assoc, List.cons_append]
    simp [eat_cons, h2, hvd, h4, hcd, h6, hbd, Expr.bare]
  | .while_ a kw l c r bd, g, eq, p, us, rest, n, hg, hp, hf, hN, hn => by
    simp only [Expr.gram, Bool.and_eq_true, decide_eq_true_eq, beq_iff_eq] at hg
    obtain ⟨⟨⟨⟨⟨h1, h2⟩, h3⟩, h4⟩, h5⟩, h6⟩ := hg
    rw [shape] at hf
    obtain ⟨b1, u1, rfl, -, hf⟩ := fits_cons hf
    obtain ⟨b2, u2, rfl, -, hf⟩ := fits_cons hf
    obtain ⟨w, z, rfl, hw, hf⟩ := fits_app hf
    obtain ⟨b3, v, rfl, -, hf⟩ := fits_cons hf
    simp only [List.length_cons, List.length_append] at hn
    refine of_prefix (by simpa using hn) (by simp) fun j hj => ?_
    rw [Expr.rcap, Expr.openIf] at hN
    have hc : Next .paren 0 true ((b3, outTok r) :: (v ++ rest)) :=
      closer_next (by rw [outTok_kind, h4]; rfl)
    have hcd := done_of (read_expr c .paren false 0 w _ j h3 (Nat.zero_le _) hw
      (hc.mono (Nat.zero_le _) fun _ => rfl) (by omega)) (by omega) hc (Nat.le_refl _) (by decide)
    have hbd := done_of (read_expr bd g true bodyOp v rest j h5 h6 hf (hN.mono min_right id)
      (by omega)) (by omega) hN min_left (by decide)
    rw [List.cons_append, readPrefix]
    simp only [outTok_kind, h1, outTok_plain, List.append_assoc, List.cons_append]
    simp [eat_cons, h2, hcd, h4, hbd, Expr.bare]
  | .repeat_ a kw bd, g, eq, p, us, rest, n, hg, hp, hf, hN, hn => by
    simp only [Expr.gram, Bool.and_eq_true, decide_eq_true_eq, beq_iff_eq] at hg
    obtain ⟨⟨h1, h5⟩, h6⟩ := hg
    rw [shape] at hf
    obtain ⟨b1, v, rfl, -, hf⟩ := fits_cons hf
    simp only [List.length_cons] at hn
    refine of_prefix (by simpa using hn) (by simp) fun j hj => ?_
    rw [Expr.rcap, Expr.openIf] at hN
    have hbd := done_of (read_expr bd g true bodyOp v rest j h5 h6 hf (hN.mono min_right id)
      (by omega)) (by omega) hN min_left (by decide)
    rw [List.cons_append, readPrefix]
    simp only [outTok_kind, h1, outTok_plain]
    simp [hbd, Expr.bare]
theorem read_stmts : ∀ (es : Exprs) (g : Region) (p : Pos) (us rest : Seen) (n : Nat), g ≠ .paren →
    es.gram = true → Fits (shapes g p es) us →
    (rest = [] ∨ ∃ b t r, rest = (b, t) :: r ∧ t.kind = .rCurly) → 3 * us.length + 2 ≤ n →
    readStmts n g (us ++ rest) = some (es.bare, rest)
  | .nil, g, p, us, rest, n, hgp, hg, hf, hr, hn => by
    rw [fits_nil hf]
    obtain ⟨m, rfl⟩ : ∃ k, n = k + 1 := ⟨n - 1, by omega⟩
    rcases hr with rfl | ⟨b, t, r, rfl, hk⟩
    · rfl
    · rw [List.nil_append, readStmts, if_pos hk]
      rfl
  | .cons e es, g, p, us, rest, n, hgp, hg, hf, hr, hn => by
    simp only [Exprs.gram, Bool.and_eq_true] at hg
    rw [shapes] at hf
    obtain ⟨u, v, rfl, hu, hv⟩ := fits_app hf
    obtain ⟨b, t, u', hu', hs, -, hu⟩ := gram_first hg.1 hu
    simp only [List.length_append] at hn
    have hul : 1 ≤ u.length := by rw [hu']; simp
    obtain ⟨m, rfl⟩ : ∃ k, n = k + 1 := ⟨n - 1, by omega⟩
    have hes := read_stmts es g .need v rest m hgp hg.2 hv hr (by omega)
    -- what follows the statement
    have hnx : Next g 0 true (v ++ rest) ∧
        (v ++ rest = [] ∨ ∃ b t r, v ++ rest = (b, t) :: r ∧ (t.kind = .rCurly ∨ b = true)) := by
      cases es with
      | nil =>
        rw [fits_nil hv, List.nil_append]
        rcases hr with rfl | ⟨b, t, r, rfl, hk⟩
        · exact ⟨trivial, .inl rfl⟩
        · exact ⟨closer_next (by rw [hk]; rfl), .inr ⟨b, t, r, rfl, .inl hk⟩⟩
      | cons e' es' =>
        rw [shapes] at hv
        obtain ⟨v1, v2, rfl, hv1, hv2⟩ := fits_app hv
        simp only [Exprs.gram, Bool.and_eq_true] at hg
        obtain ⟨b', t', v1', rfl, hs', hb', -⟩ := gram_first hg.2.1 hv1
        have hb' : b' = true := hb'
        refine ⟨⟨fun h => absurd h (starter_ne hs').1, .inl ?_⟩, .inr ⟨b', t', _, rfl, .inr hb'⟩⟩
        subst hb'
        cases g <;> first | rfl | exact absurd rfl hgp
    obtain ⟨hN, hh⟩ := hnx
    have hed := done_of (read_expr e g true 0 u (v ++ rest) m hg.1 (Nat.zero_le _) hu
      (hN.mono (Nat.zero_le _) fun _ => rfl) (by omega)) (by omega) hN (Nat.le_refl _) (by decide)
    rw [List.append_assoc]
    rw [hu', List.cons_append] at hed ⊢
    rw [readStmts, if_neg (starter_ne hs).2.1, hed]
    rcases hh with hh | ⟨b', t', r, hh, hk⟩
    · rw [hh] at hes ⊢
      obtain ⟨m, rfl⟩ : ∃ k, m = k + 1 := ⟨m - 1, by omega⟩
      rw [readStmts] at hes
      simp only [Option.some.injEq, Prod.mk.injEq] at hes
      simp [Exprs.bare, ← hes.1, ← hes.2]
    · rw [hh] at hes ⊢
      simp [hk, hes, Exprs.bare]
theorem read_args : ∀ (xs : Items) (first : Bool) (k : CallKind) (us rest : Seen) (n : Nat),
    xs.gramArgs first = true → Fits (shapeItems xs) us →
    (∃ b t r, rest = (b, t) :: r ∧ t.kind = closeKind k) → 3 * us.length + 3 ≤ n →
    readArgs n first (closeKind k) (us ++ rest) = some (xs.bare, rest)
  | .nil, first, k, us, rest, n, hg, hf, hr, hn => by
    rw [fits_nil hf]
    obtain ⟨b, t, r, rfl, hk⟩ := hr
    obtain ⟨m, rfl⟩ : ∃ k, n = k + 1 := ⟨n - 1, by omega⟩
    simp only [Items.gramArgs] at hg
    rw [List.nil_append, readArgs, hg, if_pos (by rw [nextIn_true (by simp [hk])]; rfl)]
    rfl
  | .last x, first, k, us, rest, n, hg, hf, hr, hn => by
    obtain ⟨b, t, r, rfl, hk⟩ := hr
    simp only [Items.gramArgs, Bool.and_eq_true, Bool.not_eq_true', Bool.and_eq_false_iff] at hg
    obtain ⟨h1, h2⟩ := hg
    obtain ⟨m, rfl⟩ : ∃ k, n = k + 1 := ⟨n - 1, by omega⟩
    rw [shapeItems] at hf
    have ha := read_arg x k us ((b, t) :: r) m h1 hf ⟨b, t, r, rfl, .inr hk⟩ (by omega)
    have hc : t.kind ≠ .comma := by rw [hk]; cases k <;> decide
    rw [readArgs, if_neg, ha]
    · simp [hc, Items.bare]
    · intro hh
      simp only [Bool.and_eq_true] at hh
      rcases h2 with h2 | h2
      · rw [h2] at hh; cases hh.1
      · obtain ⟨b', t', us', rfl, hk'⟩ := arg_first h1 hf h2 k
        rw [List.cons_append, nextIn_false (by simp [hk'.2])] at hh
        cases hh.2
  | .cons x s xs, first, k, us, rest, n, hg, hf, hr, hn => by
    simp only [Items.gramArgs, Bool.and_eq_true, beq_iff_eq] at hg
    obtain ⟨⟨h1, h2⟩, h3⟩ := hg
    obtain ⟨m, rfl⟩ : ∃ k, n = k + 1 := ⟨n - 1, by omega⟩
    rw [shapeItems] at hf
    obtain ⟨u, v, rfl, hu, hv⟩ := fits_app hf
    obtain ⟨b, v, rfl, -, hv⟩ := fits_cons hv
    simp only [List.length_cons, List.length_append] at hn
    have ha := read_arg x k u ((b, outTok s) :: (v ++ rest)) m h1 hu
      ⟨b, outTok s, _, rfl, .inl h2⟩ (by omega)
    have has := read_args xs false k v rest m h3 hv hr (by omega)
    rw [List.append_assoc, List.cons_append, readArgs, if_neg, ha]
    · simp [h2, has, Items.bare]
    · intro hh
      simp only [Bool.and_eq_true] at hh
      cases hx : x.isHole with
      | true =>
        cases x with
        | hole a =>
          rw [fits_nil hu, List.nil_append, nextIn_false] at hh
          · cases hh.2
          · rw [outTok_kind, h2]; cases k <;> decide
        | _ => cases hx
      | false =>
        obtain ⟨b', t', us', rfl, hk'⟩ := arg_first h1 hu hx k
        rw [List.cons_append, nextIn_false (by simp [hk'.2])] at hh
        cases hh.2
theorem read_arg : ∀ (x : Arg) (k : CallKind) (us rest : Seen) (n : Nat),
    x.gramArg = true → Fits (shapeArg x) us →
    (∃ b t r, rest = (b, t) :: r ∧ (t.kind = .comma ∨ t.kind = closeKind k)) → 3 * us.length + 2 ≤ n →
    readArg n (closeKind k) (us ++ rest) = some (x.bare, rest)
  | .hole a, k, us, rest, n, hg, hf, hr, hn => by
    rw [fits_nil hf]
    obtain ⟨b, t, r, rfl, hk⟩ := hr
    obtain ⟨m, rfl⟩ : ∃ k, n = k + 1 := ⟨n - 1, by omega⟩
    rw [List.nil_append, readArg, if_pos (nextIn_true (by simpa using hk))]
    rfl
  | .val a e, k, us, rest, n, hg, hf, hr, hn => by
    have hg : e.gram false = true := hg
    rw [shapeArg] at hf
    obtain ⟨b', t', us', hus, hk'⟩ := arg_first (x := .val a e) hg hf rfl k
    obtain ⟨b, t, r, rfl, hk⟩ := hr
    obtain ⟨m, rfl⟩ : ∃ k, n = k + 1 := ⟨n - 1, by omega⟩
    have hcl : closer t.kind = true := by
      rcases hk with hk | hk <;> rw [hk]
      · rfl
      · exact closer_close k
    have hc : Next .paren 0 true ((b, t) :: r) := closer_next hcl
    have hcd := done_of (read_expr e .paren false 0 us _ m hg (Nat.zero_le _) hf
      (hc.mono (Nat.zero_le _) fun _ => rfl) (by omega)) (by omega) hc (Nat.le_refl _) (by decide)
    rw [readArg, if_neg, nameEq_none, hcd]
    · rfl
    · refine no_nameEq e us _ _ hg hf (nextIn_false ?_)
      intro h
      rw [List.mem_singleton] at h
      rw [h] at hcl
      cases hcl
    · rw [hus, List.cons_append, nextIn_false (by simpa using hk')]
      decide
  | .name a na nm q, k, us, rest, n, hg, hf, hr, hn => by
    obtain ⟨b', t', us', hus, hk'⟩ := arg_first (x := .name a na nm q) hg hf rfl k
    simp only [Arg.gramArg, Bool.and_eq_true, beq_iff_eq] at hg
    obtain ⟨h1, h2⟩ := hg
    rw [shapeArg] at hf
    obtain ⟨u, v, rfl, hu, hv⟩ := fits_app hf
    obtain ⟨b3, rfl, -⟩ := fits_one hv
    obtain ⟨b, t, r, rfl, hk⟩ := hr
    obtain ⟨m, rfl⟩ : ∃ k, n = k + 1 := ⟨n - 1, by omega⟩
    rw [← headFree (argName_gram h1)] at hu
    have hnm := read_name (rest := (b3, outTok q) :: (b, t) :: r) (argName_name h1) hu
    rw [readArg, if_neg]
    · rw [List.append_assoc, List.cons_append, List.nil_append]
      simp only [readNameEq, hnm]
      simp [eat_cons, h2, nextIn_true (show t.kind ∈ [Kind.comma, closeKind k] by simpa using hk),
        Arg.bare]
    · rw [hus, List.cons_append, nextIn_false (by simpa using hk')]
      decide
  | .named a na nm q e, k, us, rest, n, hg, hf, hr, hn => by
    obtain ⟨b', t', us', hus, hk'⟩ := arg_first (x := .named a na nm q e) hg hf rfl k
    simp only [Arg.gramArg, Bool.and_eq_true, beq_iff_eq] at hg
    obtain ⟨⟨h1, h2⟩, h3⟩ := hg
    rw [shapeArg] at hf
    obtain ⟨u, v, rfl, hu, hv⟩ := fits_app hf
    obtain ⟨b3, v, rfl, -, hv⟩ := fits_cons hv
    obtain ⟨b, t, r, rfl, hk⟩ := hr
    simp only [List.length_cons, List.length_append] at hn
    obtain ⟨m, rfl⟩ : ∃ k, n = k + 1 := ⟨n - 1, by omega⟩
    have hcl : closer t.kind = true := by
      rcases hk with hk | hk <;> rw [hk]
      · rfl
      · exact closer_close k
    have hc : Next .paren 0 true ((b, t) :: r) := closer_next hcl
    have hcd := done_of (read_expr e .paren false 0 v _ m h3 (Nat.zero_le _) hv
      (hc.mono (Nat.zero_le _) fun _ => rfl) (by omega)) (by omega) hc (Nat.le_refl _) (by decide)
    obtain ⟨b4, t4, v4, hv4, hk4⟩ := arg_first (x := .val a e) h3 hv rfl k
    have hne : nextIn [.comma, closeKind k] (v ++ (b, t) :: r) = false := by
      rw [hv4, List.cons_append, nextIn_false (by simpa using hk4)]
    rw [← headFree (argName_gram h1)] at hu
    have hnm := read_name (rest := (b3, outTok q) :: (v ++ (b, t) :: r)) (argName_name h1) hu
    rw [readArg, if_neg]
    · rw [List.append_assoc, List.cons_append]
      simp only [readNameEq, hnm]
      simp [eat_cons, h2, hne, hcd, Arg.bare]
    · rw [hus, List.cons_append, nextIn_false (by simpa using hk')]
      decide
  | .pdef .., k, us, rest, n, hg, hf, hr, hn => by cases hg
theorem read_pars : ∀ (xs : Items) (first : Bool) (us rest : Seen) (n : Nat),
    (if first then xs.gramPars else xs.gramPars1) = true → Fits (shapeItems xs) us →
    (∃ b t r, rest = (b, t) :: r ∧ t.kind = .rParen) → 3 * us.length + 2 ≤ n →
    readPars n first (us ++ rest) = some (xs.bare, rest)
  | .nil, first, us, rest, n, hg, hf, hr, hn => by
    rw [fits_nil hf]
    obtain ⟨b, t, r, rfl, hk⟩ := hr
    obtain ⟨m, rfl⟩ : ∃ k, n = k + 1 := ⟨n - 1, by omega⟩
    cases first with
    | false => cases hg
    | true =>
      rw [List.nil_append, readPars, if_pos (by rw [nextIn_true (by simp [hk])]; rfl)]
      rfl
  | .last x, first, us, rest, n, hg, hf, hr, hn => by
    have hg : x.gramPar = true := by cases first <;> exact hg
    obtain ⟨b, t, r, rfl, hk⟩ := hr
    obtain ⟨m, rfl⟩ : ∃ k, n = k + 1 := ⟨n - 1, by omega⟩
    rw [shapeItems] at hf
    obtain ⟨h1, nm, ts, h2, h3⟩ := read_par x us ((b, t) :: r) m hg hf ⟨b, t, r, rfl, .inr hk⟩
      (by omega)
    rw [readPars, h1, Bool.and_false, if_neg (by decide), h2]
    have hc : t.kind ≠ .comma := by rw [hk]; decide
    refine (congrArg (fun z => Option.bind z _) h3).trans ?_
    simp [hc, Items.bare]
  | .cons x s xs, first, us, rest, n, hg, hf, hr, hn => by
    have hg : (x.gramPar && s.kind == .comma && xs.gramPars1) = true := by cases first <;> exact hg
    simp only [Bool.and_eq_true, beq_iff_eq] at hg
    obtain ⟨⟨g1, g2⟩, g3⟩ := hg
    obtain ⟨m, rfl⟩ : ∃ k, n = k + 1 := ⟨n - 1, by omega⟩
    rw [shapeItems] at hf
    obtain ⟨u, v, rfl, hu, hv⟩ := fits_app hf
    obtain ⟨b, v, rfl, -, hv⟩ := fits_cons hv
    simp only [List.length_cons, List.length_append] at hn
    obtain ⟨h1, nm, ts, h2, h3⟩ := read_par x u ((b, outTok s) :: (v ++ rest)) m g1 hu
      ⟨b, outTok s, _, rfl, .inl g2⟩ (by omega)
    have has := read_pars xs false v rest m g3 hv hr (by omega)
    rw [List.append_assoc, List.cons_append, readPars, h1, Bool.and_false, if_neg (by decide), h2]
    refine (congrArg (fun z => Option.bind z _) h3).trans ?_
    simp [g2, has, Items.bare]
theorem read_par : ∀ (x : Arg) (us rest : Seen) (n : Nat),
    x.gramPar = true → Fits (shapeArg x) us →
    (∃ b t r, rest = (b, t) :: r ∧ (t.kind = .comma ∨ t.kind = .rParen)) → 3 * us.length + 1 ≤ n →
    nextIn [.rParen] (us ++ rest) = false ∧
    ∃ nm ts, readParName (us ++ rest) = some (nm, ts) ∧
      (match eat .equal ts with
        | some (q, ts) => do
          let (e, ts) ← readExpr n .paren false 0 ts
          return (Arg.pdef {} nm {} q e, ts)
        | none => return (Arg.val {} nm, ts)) = some (x.bare, rest)
  | .val a e, us, rest, n, hg, hf, hr, hn => by
    have hg : e.parName = true := hg
    rw [shapeArg] at hf
    obtain ⟨b, t, r, rfl, hk⟩ := hr
    have hf' := hf
    rw [← headFree (parName_gram hg)] at hf'
    obtain ⟨b', t', u', hu, hs, -, -⟩ := gram_first (parName_gram hg) hf'
    refine ⟨by rw [hu, List.cons_append, nextIn_false]; simpa using (starter_ne hs).2.2.2.1, ?_⟩
    refine ⟨_, _, read_parName hg hf, ?_⟩
    rw [eat_none (nextIn_false (by rcases hk with hk | hk <;> rw [hk] <;> decide))]
    rfl
  | .pdef a nm da q e, us, rest, n, hg, hf, hr, hn => by
    simp only [Arg.gramPar, Bool.and_eq_true, beq_iff_eq] at hg
    obtain ⟨⟨h1, h2⟩, h3⟩ := hg
    rw [shapeArg] at hf
    obtain ⟨u, v, rfl, hu, hv⟩ := fits_app hf
    obtain ⟨b3, v, rfl, -, hv⟩ := fits_cons hv
    obtain ⟨b, t, r, rfl, hk⟩ := hr
    simp only [List.length_cons, List.length_append] at hn
    have hf' := hu
    rw [← headFree (parName_gram h1)] at hf'
    obtain ⟨b', t', u', hu', hs, -, -⟩ := gram_first (parName_gram h1) hf'
    have hc : Next .paren 0 true ((b, t) :: r) :=
      closer_next (by rcases hk with hk | hk <;> rw [hk] <;> rfl)
    have hcd := done_of (read_expr e .paren false 0 v _ n h3 (Nat.zero_le _) hv
      (hc.mono (Nat.zero_le _) fun _ => rfl) (by omega)) (by omega) hc (Nat.le_refl _) (by decide)
    refine ⟨by rw [hu', List.cons_append, List.cons_append, nextIn_false]
               simpa using (starter_ne hs).2.2.2.1, ?_⟩
    rw [List.append_assoc]
    refine ⟨_, _, read_parName h1 hu, ?_⟩
    rw [List.cons_append, eat_cons h2]
    simp only [hcd]
    rfl
  | .hole .., us, rest, n, hg, hf, hr, hn => by cases hg
  | .name .., us, rest, n, hg, hf, hr, hn => by cases hg
  | .named .., us, rest, n, hg, hf, hr, hn => by cases hg
end

/-- The reader finds every program of the grammar: its tokens, with line breaks where R permits and
requires them, are read as this program. -/
theorem readFile_gram {es : Exprs} {p : Pos} {us : Seen} (hg : es.gram = true)
    (hf : Fits (shapes .top p es) us) : readFile us = some es.bare := by
  have h := read_stmts es .top p us [] (3 * us.length + 3) (by decide) hg hf (.inl rfl) (by omega)
  rw [List.append_nil] at h
  rw [readFile, h]

end Verif.Format
