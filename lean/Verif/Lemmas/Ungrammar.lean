import Verif.Spec.Ungrammar

/-!
# Lemmas on grammar files: the parser
-/

namespace Verif.Ungrammar

mutual
/-- The names of a rule get their numbers from left to right. -/
def Rule.number (s : Tables) : Rule Name → Rule Nat × Tables
  | .labeled l r => (.labeled l (r.number s).1, (r.number s).2)
  | .node n => (.node (position n s.nodes), { s with nodes := insert n s.nodes })
  | .token n => (.token (position n s.tokens), { s with tokens := insert n s.tokens })
  | .seq rs => (.seq (rs.number s).1, (rs.number s).2)
  | .alt rs => (.alt (rs.number s).1, (rs.number s).2)
  | .unorderedSome rs => (.unorderedSome (rs.number s).1, (rs.number s).2)
  | .unorderedAll rs => (.unorderedAll (rs.number s).1, (rs.number s).2)
  | .opt r => (.opt (r.number s).1, (r.number s).2)
  | .rep r => (.rep (r.number s).1, (r.number s).2)
def Rules.number (s : Tables) : Rules Name → Rules Nat × Tables
  | .nil => (.nil, s)
  | .cons r rs => (.cons (r.number s).1 (rs.number (r.number s).2).1, (rs.number (r.number s).2).2)
end

/-! ## What comes after a rule -/

/-- Nothing that belongs to an atom before it. -/
def Calm (rest : List Kind) : Prop :=
  ∀ k, rest.head? = some k → k ≠ .eq ∧ k ≠ .colon ∧ k ≠ .qmark ∧ k ≠ .star

/-- The end, `)` or the next definition. -/
inductive Stops : List Kind → Prop
  | nil : Stops []
  | rparen (r : List Kind) : Stops (.rparen :: r)
  | next (n : Name) (r : List Kind) : Stops (.node n :: .eq :: r)

/-- The same, or a combinator. -/
inductive Ends : List Kind → Prop
  | stops {r : List Kind} (h : Stops r) : Ends r
  | comb {k : Kind} (h : isCombinator k = true) (r : List Kind) : Ends (k :: r)

theorem comb_cases {k : Kind} (h : isCombinator k = true) : k = .pipe ∨ k = .pipe2 ∨ k = .amp2 := by
  cases k <;> simp [isCombinator] at h ⊢

theorem Ends.calm {r : List Kind} (h : Ends r) : Calm r := by
  intro k hk
  cases h with
  | stops h => cases h <;> simp at hk <;> subst hk <;> simp
  | comb h => simp at hk; subst hk; rcases comb_cases h with rfl | rfl | rfl <;> simp

theorem Ends.optAtom {r : List Kind} (h : Ends r) (f : Nat) (s : Tables) : optAtom (f + 1) s r = some (none, s, r) := by
  cases h with
  | stops h => cases h <;> simp [Ungrammar.optAtom]
  | comb h => rcases comb_cases h with rfl | rfl | rfl <;> simp [Ungrammar.optAtom]

theorem Stops.altTail {r : List Kind} (h : Stops r) (f : Nat) (k : Option Kind) (s : Tables) :
    altTail (f + 1) k s r = some (.nil, k, s, r) := by
  cases h <;> simp [Ungrammar.altTail, isCombinator]

theorem suffix_calm {rest : List Kind} (h : Calm rest) (r : Rule Nat) (s : Tables) : suffix r s rest = (some r, s, rest) := by
  unfold suffix
  split
  · exact absurd rfl (h .qmark rfl).2.2.1
  · exact absurd rfl (h .star rfl).2.2.2
  · rfl

theorem base_starts (b : Base) : ∃ k ts, b.toks = k :: ts ∧ k ≠ .eq ∧ k ≠ .colon ∧ k ≠ .qmark ∧ k ≠ .star := by
  cases b <;> exact ⟨_, _, by rw [Base.toks], by simp, by simp, by simp, by simp⟩

theorem atom_starts (a : Atom) : ∃ k ts, a.toks = k :: ts ∧ k ≠ .eq ∧ k ≠ .colon ∧ k ≠ .qmark ∧ k ≠ .star := by
  cases a with
  | base b => rw [Atom.toks]; exact base_starts b
  | opt b => obtain ⟨k, ts, h, hk⟩ := base_starts b; exact ⟨k, ts ++ [.qmark], by rw [Atom.toks, h]; rfl, hk⟩
  | rep b => obtain ⟨k, ts, h, hk⟩ := base_starts b; exact ⟨k, ts ++ [.star], by rw [Atom.toks, h]; rfl, hk⟩
  | labeled l a => exact ⟨_, _, by rw [Atom.toks], by simp, by simp, by simp, by simp⟩

theorem atoms_calm (as : Atoms) {rest : List Kind} (h : Calm rest) : Calm (as.toks ++ rest) := by
  cases as with
  | nil => rw [Atoms.toks]; exact h
  | cons a as =>
    obtain ⟨k, ts, e, hk⟩ := atom_starts a
    intro k' h'
    rw [Atoms.toks, e] at h'
    simp at h'
    subst h'
    exact hk

theorem atom_pos (a : Atom) : 0 < a.toks.length := by
  obtain ⟨k, ts, h, -⟩ := atom_starts a
  simp [h]

theorem parts_ends (qs : Parts) {k : Kind} (hk : isCombinator k = true) {rest : List Kind} (h : Stops rest) :
    Ends (qs.toks k ++ rest) := by
  cases qs with
  | nil => rw [Parts.toks]; exact .stops h
  | cons q qs => rw [Parts.toks]; exact .comb hk _

/-! ## What is written is read -/

mutual
theorem base_parse : ∀ (b : Base) (f : Nat) (s : Tables) (rest : List Kind), 6 * b.toks.length ≤ f →
    (∀ k, rest.head? = some k → k ≠ .eq ∧ k ≠ .colon) →
    optAtom f s (b.toks ++ rest) = some (suffix (b.rule.number s).1 (b.rule.number s).2 rest)
  | .node n, f, s, rest, hf, hr => by
    rw [Base.toks] at hf ⊢
    obtain ⟨f, rfl⟩ : ∃ g, f = g + 1 := ⟨f - 1, by simp at hf; omega⟩
    rw [List.singleton_append, optAtom, if_neg (fun h => (hr _ h).1 rfl), if_neg (fun h => (hr _ h).2 rfl), Base.rule, Rule.number]
  | .token n, f, s, rest, hf, hr => by
    rw [Base.toks] at hf ⊢
    obtain ⟨f, rfl⟩ : ∃ g, f = g + 1 := ⟨f - 1, by simp at hf; omega⟩
    rw [List.singleton_append, optAtom, Base.rule, Rule.number]
  | .paren w, f, s, rest, hf, hr => by
    rw [Base.toks] at hf ⊢
    simp at hf
    obtain ⟨f, rfl⟩ : ∃ g, f = g + 1 := ⟨f - 1, by omega⟩
    rw [List.cons_append, optAtom, List.append_assoc, List.singleton_append, whole_parse w f s _ (by omega) (.rparen _)]
    simp [Base.rule]
theorem atom_parse : ∀ (a : Atom) (f : Nat) (s : Tables) (rest : List Kind), 6 * a.toks.length ≤ f → Calm rest →
    optAtom f s (a.toks ++ rest) = some (some (a.rule.number s).1, (a.rule.number s).2, rest)
  | .base b, f, s, rest, hf, hr => by
    rw [Atom.toks] at hf ⊢
    rw [base_parse b f s rest hf (fun k h => ⟨(hr k h).1, (hr k h).2.1⟩), suffix_calm hr, Atom.rule]
  | .opt b, f, s, rest, hf, hr => by
    rw [Atom.toks] at hf ⊢
    simp at hf
    rw [List.append_assoc, base_parse b f s _ (by omega) (by simp), Atom.rule, Rule.number]
    rfl
  | .rep b, f, s, rest, hf, hr => by
    rw [Atom.toks] at hf ⊢
    simp at hf
    rw [List.append_assoc, base_parse b f s _ (by omega) (by simp), Atom.rule, Rule.number]
    rfl
  | .labeled l a, f, s, rest, hf, hr => by
    rw [Atom.toks] at hf ⊢
    simp at hf
    obtain ⟨f, rfl⟩ : ∃ g, f = g + 2 := ⟨f - 2, by omega⟩
    rw [List.cons_append, optAtom]
    simp only [List.cons_append, List.head?_cons, List.drop_succ_cons, List.drop_zero]
    rw [if_neg (by simp), if_pos trivial, atom, atom_parse a f s rest (by omega) hr, Atom.rule, Rule.number]
theorem atoms_parse : ∀ (as : Atoms) (f : Nat) (s : Tables) (rest : List Kind), 6 * as.toks.length + 2 ≤ f → Ends rest →
    seqTail f s (as.toks ++ rest) = some ((as.rules.number s).1, (as.rules.number s).2, rest)
  | .nil, f, s, rest, hf, hr => by
    obtain ⟨f, rfl⟩ : ∃ g, f = g + 2 := ⟨f - 2, by omega⟩
    rw [Atoms.toks, List.nil_append, seqTail, hr.optAtom, Atoms.rules, Rules.number]
  | .cons a as, f, s, rest, hf, hr => by
    rw [Atoms.toks] at hf ⊢
    have := atom_pos a
    simp at hf
    obtain ⟨f, rfl⟩ : ∃ g, f = g + 1 := ⟨f - 1, by omega⟩
    rw [List.append_assoc, seqTail, atom_parse a f s _ (by omega) (atoms_calm as hr.calm)]
    simp only
    rw [atoms_parse as f _ rest (by omega) hr, Atoms.rules, Rules.number]
theorem seq_parse : ∀ (q : Seq) (f : Nat) (s : Tables) (rest : List Kind), 6 * q.toks.length + 3 ≤ f → Ends rest →
    seq f s (q.toks ++ rest) = some ((q.rule.number s).1, (q.rule.number s).2, rest)
  | .mk a as, f, s, rest, hf, hr => by
    rw [Seq.toks] at hf ⊢
    simp at hf
    have := atom_pos a
    obtain ⟨f, rfl⟩ : ∃ g, f = g + 2 := ⟨f - 2, by omega⟩
    rw [List.append_assoc, seq, atom, atom_parse a f s _ (by omega) (atoms_calm as hr.calm)]
    simp only
    rw [atoms_parse as (f + 1) _ rest (by omega) hr]
    cases as with
    | nil => simp [Seq.rule, Atoms.rules, Rules.number, Rules.isNil]
    | cons b bs => simp [Seq.rule, Atoms.rules, Rules.number, Rule.number, Rules.isNil]
theorem parts_parse : ∀ (qs : Parts) (k : Kind) (hk : isCombinator k = true) (k' : Option Kind) (f : Nat) (s : Tables)
    (rest : List Kind), (k' = none ∨ k' = some k) → 6 * (qs.toks k).length + 2 ≤ f → Stops rest →
    altTail f k' s (qs.toks k ++ rest) = some ((qs.rules.number s).1, (match qs with | .nil => k' | .cons .. => some k),
      (qs.rules.number s).2, rest)
  | .nil, k, hk, k', f, s, rest, hk', hf, hr => by
    obtain ⟨f, rfl⟩ : ∃ g, f = g + 1 := ⟨f - 1, by omega⟩
    rw [Parts.toks, List.nil_append, hr.altTail, Parts.rules, Rules.number]
  | .cons q qs, k, hk, k', f, s, rest, hk', hf, hr => by
    rw [Parts.toks] at hf ⊢
    simp at hf
    obtain ⟨f, rfl⟩ : ∃ g, f = g + 1 := ⟨f - 1, by omega⟩
    rw [List.cons_append, altTail]
    simp only
    rw [if_pos hk, if_pos hk', List.append_assoc, seq_parse q f s _ (by omega) (parts_ends qs hk hr)]
    simp only
    rw [parts_parse qs k hk (some k) f _ rest (.inr rfl) (by omega) hr]
    cases qs <;> simp [Parts.rules, Rules.number]
theorem whole_parse : ∀ (w : Whole) (f : Nat) (s : Tables) (rest : List Kind), 6 * w.toks.length + 4 ≤ f → Stops rest →
    rule f s (w.toks ++ rest) = some ((w.rule.number s).1, (w.rule.number s).2, rest)
  | .mk q k hk qs, f, s, rest, hf, hr => by
    rw [Whole.toks] at hf ⊢
    simp at hf
    obtain ⟨f, rfl⟩ : ∃ g, f = g + 1 := ⟨f - 1, by omega⟩
    rw [List.append_assoc, rule, seq_parse q f s _ (by omega) (parts_ends qs hk hr)]
    simp only
    rw [parts_parse qs k hk none f _ rest (.inl rfl) (by omega) hr]
    cases qs with
    | nil => simp [Whole.rule, Parts.rules, Rules.number, Rules.isNil]
    | cons p ps =>
      rcases comb_cases hk with rfl | rfl | rfl <;>
        simp [Whole.rule, Parts.rules, Rules.number, Rule.number, Rules.isNil, combine]
end

/-! ## What is read is written -/

theorem suffix_some {r : Rule Nat} {s : Tables} {ts : List Kind} {o : Option (Rule Nat)} {s' : Tables} {ts' : List Kind}
    (h : suffix r s ts = (o, s', ts')) : s' = s ∧ (o = some r ∧ ts = ts' ∨ o = some (.opt r) ∧ ts = .qmark :: ts' ∨
      o = some (.rep r) ∧ ts = .star :: ts') := by
  unfold suffix at h
  split at h <;> cases h
  · exact ⟨rfl, .inr (.inl ⟨rfl, rfl⟩)⟩
  · exact ⟨rfl, .inr (.inr ⟨rfl, rfl⟩)⟩
  · exact ⟨rfl, .inl ⟨rfl, rfl⟩⟩

theorem suffix_written {b : Base} {s s' : Tables} {ts ts' : List Kind} {o : Option (Rule Nat)}
    (h : suffix (b.rule.number s).1 (b.rule.number s).2 ts = (o, s', ts')) :
    ∃ a : Atom, b.toks ++ ts = a.toks ++ ts' ∧ o = some (a.rule.number s).1 ∧ s' = (a.rule.number s).2 := by
  obtain ⟨rfl, ⟨h1, h2⟩ | ⟨h1, h2⟩ | ⟨h1, h2⟩⟩ := suffix_some h
  · exact ⟨.base b, by rw [Atom.toks, h2], by rw [h1, Atom.rule], by rw [Atom.rule]⟩
  · exact ⟨.opt b, by simp [Atom.toks, h2], by rw [h1, Atom.rule, Rule.number], by rw [Atom.rule, Rule.number]⟩
  · exact ⟨.rep b, by simp [Atom.toks, h2], by rw [h1, Atom.rule, Rule.number], by rw [Atom.rule, Rule.number]⟩

theorem head_drop {ts : List Kind} {k : Kind} (h : ts.head? = some k) : ts = k :: ts.drop 1 := by
  cases ts with
  | nil => cases h
  | cons x ts => cases h; rfl

/-- What the functions of the parser have read, with `f` as bound. -/
structure Reads (f : Nat) : Prop where
  optAtom : ∀ {s ts o s' ts'}, optAtom f s ts = some (o, s', ts') → (o = none ∧ s' = s ∧ ts' = ts) ∨
    ∃ a : Atom, ts = a.toks ++ ts' ∧ o = some (a.rule.number s).1 ∧ s' = (a.rule.number s).2
  atom : ∀ {s ts r s' ts'}, atom f s ts = some (r, s', ts') →
    ∃ a : Atom, ts = a.toks ++ ts' ∧ r = (a.rule.number s).1 ∧ s' = (a.rule.number s).2
  seqTail : ∀ {s ts r s' ts'}, seqTail f s ts = some (r, s', ts') →
    ∃ a : Atoms, ts = a.toks ++ ts' ∧ r = (a.rules.number s).1 ∧ s' = (a.rules.number s).2
  seq : ∀ {s ts r s' ts'}, seq f s ts = some (r, s', ts') →
    ∃ a : Seq, ts = a.toks ++ ts' ∧ r = (a.rule.number s).1 ∧ s' = (a.rule.number s).2
  altTail : ∀ {s ts r k k' s' ts'}, altTail f k s ts = some (r, k', s', ts') →
    (r = .nil ∧ k' = k ∧ s' = s ∧ ts' = ts) ∨ ∃ c q qs, k' = some c ∧ (k = none ∨ k = some c) ∧ isCombinator c = true ∧
      ts = (Parts.cons q qs).toks c ++ ts' ∧ r = ((Parts.cons q qs).rules.number s).1 ∧ s' = ((Parts.cons q qs).rules.number s).2
  rule : ∀ {s ts r s' ts'}, rule f s ts = some (r, s', ts') →
    ∃ a : Whole, ts = a.toks ++ ts' ∧ r = (a.rule.number s).1 ∧ s' = (a.rule.number s).2

theorem reads : ∀ f, Reads f
  | 0 => by
    constructor
    · intro s ts o s' ts' h; rw [optAtom] at h; cases h
    · intro s ts o s' ts' h; rw [atom] at h; cases h
    · intro s ts o s' ts' h; rw [seqTail] at h; cases h
    · intro s ts o s' ts' h; rw [seq] at h; cases h
    · intro s ts r k k' s' ts' h; rw [altTail] at h; cases h
    · intro s ts o s' ts' h; rw [rule] at h; cases h
  | f + 1 => by
    have ih := reads f
    constructor
    · intro s ts o s' ts' h
      rw [optAtom.eq_def] at h
      simp only at h
      split at h
      · rename_i n u
        split at h
        · cases h; exact .inl ⟨rfl, rfl, rfl⟩
        · split at h
          · rename_i hc
            split at h
            · rename_i r1 s1 t1 he
              cases h
              obtain ⟨a, h1, h2, h3⟩ := ih.atom he
              refine .inr ⟨.labeled n a, ?_, by rw [Atom.rule, Rule.number, h2], by rw [Atom.rule, Rule.number, h3]⟩
              rw [head_drop hc, h1, Atom.toks]
              rfl
            · cases h
          · obtain ⟨a, h1, h2, h3⟩ := suffix_written (b := .node n) (s := s) (ts := u) (o := o) (s' := s') (ts' := ts')
              (by rw [Base.rule, Rule.number]; exact Option.some.inj h)
            exact .inr ⟨a, by rw [← h1, Base.toks]; rfl, h2, h3⟩
      · rename_i n u
        obtain ⟨a, h1, h2, h3⟩ := suffix_written (b := .token n) (s := s) (ts := u) (o := o) (s' := s') (ts' := ts')
          (by rw [Base.rule, Rule.number]; exact Option.some.inj h)
        exact .inr ⟨a, by rw [← h1, Base.toks]; rfl, h2, h3⟩
      · rename_i u
        split at h
        · rename_i r1 s1 t1 he
          split at h
          · rename_i hc
            obtain ⟨w, h1, h2, h3⟩ := ih.rule he
            subst h2 h3
            obtain ⟨a, g1, g2, g3⟩ := suffix_written (b := .paren w) (s := s) (ts := t1.drop 1) (o := o) (s' := s') (ts' := ts')
              (by rw [Base.rule]; exact Option.some.inj h)
            refine .inr ⟨a, ?_, g2, g3⟩
            rw [← g1, Base.toks, h1, head_drop hc]
            simp
          · cases h
        · cases h
      · cases h; exact .inl ⟨rfl, rfl, rfl⟩
    · intro s ts r s' ts' h
      rw [atom] at h
      split at h
      · rename_i he
        cases h
        rcases ih.optAtom he with ⟨h1, -⟩ | ⟨a, h1, h2, h3⟩
        · cases h1
        · cases h2; exact ⟨a, h1, rfl, h3⟩
      · cases h
    · intro s ts r s' ts' h
      rw [seqTail] at h
      split at h
      · rename_i he
        split at h
        · rename_i he'
          cases h
          rcases ih.optAtom he with ⟨h1, -⟩ | ⟨a, h1, h2, h3⟩
          · cases h1
          · cases h2
            subst h3
            obtain ⟨as, g1, g2, g3⟩ := ih.seqTail he'
            exact ⟨.cons a as, by rw [h1, g1, Atoms.toks, List.append_assoc], by rw [Atoms.rules, Rules.number, g2],
              by rw [Atoms.rules, Rules.number, g3]⟩
        · cases h
      · rename_i he
        cases h
        rcases ih.optAtom he with ⟨-, rfl, rfl⟩ | ⟨a, -, h2, -⟩
        · exact ⟨.nil, by rw [Atoms.toks]; rfl, by rw [Atoms.rules, Rules.number], by rw [Atoms.rules, Rules.number]⟩
        · cases h2
      · cases h
    · intro s ts r s' ts' h
      rw [seq] at h
      split at h
      · rename_i he
        split at h
        · rename_i he'
          cases h
          obtain ⟨a, h1, h2, h3⟩ := ih.atom he
          subst h2 h3
          obtain ⟨as, g1, g2, g3⟩ := ih.seqTail he'
          refine ⟨.mk a as, by rw [h1, g1, Seq.toks, List.append_assoc], ?_, ?_⟩
          · rw [g2]
            cases as <;> simp [Seq.rule, Atoms.rules, Rules.number, Rule.number, Rules.isNil]
          · rw [g3]
            cases as <;> simp [Seq.rule, Atoms.rules, Rules.number, Rule.number]
        · cases h
      · cases h
    · intro s ts r k k' s' ts' h
      rw [altTail.eq_def] at h
      simp only at h
      split at h
      · rename_i t u
        split at h
        · rename_i hc
          split at h
          · rename_i hk
            split at h
            · rename_i he
              split at h
              · rename_i he'
                cases h
                obtain ⟨q, h1, h2, h3⟩ := ih.seq he
                subst h2 h3
                rcases ih.altTail he' with ⟨g1, g2, g3, g4⟩ | ⟨c, p, ps, g1, g2, g3, g4, g5, g6⟩
                · subst g1 g2 g3 g4
                  exact .inr ⟨t, q, .nil, rfl, hk, hc, by rw [h1, Parts.toks, Parts.toks]; simp,
                    by simp [Parts.rules, Rules.number], by simp [Parts.rules, Rules.number]⟩
                · obtain rfl : t = c := by rcases g2 with h | h <;> cases h; rfl
                  refine .inr ⟨t, q, .cons p ps, g1, hk, hc, ?_, ?_, ?_⟩
                  · rw [h1, g4]; simp [Parts.toks]
                  · rw [g5]; simp [Parts.rules, Rules.number]
                  · rw [g6]; simp [Parts.rules, Rules.number]
              · cases h
            · cases h
          · cases h
        · cases h; exact .inl ⟨rfl, rfl, rfl, rfl⟩
      · cases h; exact .inl ⟨rfl, rfl, rfl, rfl⟩
    · intro s ts r s' ts' h
      rw [rule] at h
      split at h
      · rename_i he
        split at h
        · rename_i he'
          cases h
          obtain ⟨q, h1, h2, h3⟩ := ih.seq he
          subst h2 h3
          rcases ih.altTail he' with ⟨g1, g2, g3, g4⟩ | ⟨c, p, ps, g1, g2, g3, g4, g5, g6⟩
          · subst g1 g2 g3 g4
            exact ⟨.mk q .pipe rfl .nil, by rw [h1]; simp [Whole.toks, Parts.toks], by simp [Whole.rule, Rules.isNil], by simp [Whole.rule]⟩
          · subst g1 g5 g6
            refine ⟨.mk q c g3 (.cons p ps), by rw [h1, g4]; simp [Whole.toks], ?_, ?_⟩
            · rcases comb_cases g3 with rfl | rfl | rfl <;>
                simp [Whole.rule, Parts.rules, Rules.number, Rule.number, Rules.isNil, combine]
            · rcases comb_cases g3 with rfl | rfl | rfl <;>
                simp [Whole.rule, Parts.rules, Rules.number, Rule.number]
        · cases h
      · cases h

end Verif.Ungrammar
