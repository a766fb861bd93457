import Verif.Lemmas.Ungrammar

/-!
# C81: grammar files are read as they are written
-/

namespace Verif.Ungrammar

/-! ## Numbers and names -/

theorem position_new (n : Name) (ns : List Name) (h : n ∉ ns) : position n ns = ns.length := by
  induction ns with
  | nil => rfl
  | cons m ms ih =>
    rw [position, if_neg (fun e => h (by simp [e])), ih (fun h' => h (by simp [h']))]
    rfl

theorem position_get (n : Name) (ns : List Name) (h : n ∈ ns) : ns[position n ns]? = some n := by
  induction ns with
  | nil => cases h
  | cons m ms ih =>
    rw [position]
    split
    · rename_i e; simp [e]
    · rename_i e
      rw [List.getElem?_cons_succ]
      exact ih ((List.mem_cons.1 h).resolve_left fun h => e h.symm)

theorem insert_get (n : Name) (ns : List Name) : (insert n ns)[position n ns]? = some n := by
  unfold insert
  split
  · rename_i h; exact position_get n ns h
  · rename_i h; rw [position_new n ns h]; simp

theorem insert_prefix (n : Name) (ns : List Name) : ns <+: insert n ns := by
  unfold insert
  split
  · exact List.prefix_refl _
  · exact List.prefix_append _ _

theorem insert_nodup (n : Name) {ns : List Name} (h : ns.Nodup) : (insert n ns).Nodup := by
  unfold insert
  split
  · exact h
  · rename_i hn
    rw [List.nodup_append]
    exact ⟨h, by simp, fun a ha b hb => by simp at hb; subst hb; rintro rfl; exact hn ha⟩

theorem mem_insert {n m : Name} {ns : List Name} : m ∈ insert n ns ↔ m ∈ ns ∨ m = n := by
  unfold insert
  split
  · rename_i h
    exact ⟨.inl, fun h' => h'.elim id fun e => e ▸ h⟩
  · simp

theorem prefix_get {α : Type} {a b : List α} (h : a <+: b) {i : Nat} {x : α} (hx : a[i]? = some x) : b[i]? = some x := by
  obtain ⟨c, rfl⟩ := h
  rw [List.getElem?_append_left]
  · exact hx
  · exact (List.getElem?_eq_some_iff.1 hx).1

/-- The tables `t` have what `s` has, in the same places. -/
def Tables.Le (s t : Tables) : Prop := s.nodes <+: t.nodes ∧ s.tokens <+: t.tokens

theorem Tables.Le.trans {s t u : Tables} (h : s.Le t) (h' : t.Le u) : s.Le u := ⟨h.1.trans h'.1, h.2.trans h'.2⟩

/-- What numbering a rule does to the tables. -/
structure Grows (s t : Tables) (mentions literals : List Name) : Prop where
  le : s.Le t
  nodes : s.nodes.Nodup → t.nodes.Nodup
  tokens : s.tokens.Nodup → t.tokens.Nodup
  mem : ∀ n, n ∈ t.nodes ↔ n ∈ s.nodes ∨ n ∈ mentions
  lit : ∀ n, n ∈ t.tokens → n ∈ s.tokens ∨ n ∈ literals

mutual
theorem rule_grows : ∀ (r : Rule Name) (s : Tables), Grows s (r.number s).2 r.mentions r.literals
  | .labeled _ r, s => by rw [Rule.number, Rule.mentions, Rule.literals]; exact rule_grows r s
  | .node n, s => by
    rw [Rule.number, Rule.mentions, Rule.literals]
    exact ⟨⟨insert_prefix _ _, List.prefix_refl _⟩, insert_nodup _, id, fun m => by rw [mem_insert]; simp, fun m h => .inl h⟩
  | .token n, s => by
    rw [Rule.number, Rule.mentions, Rule.literals]
    exact ⟨⟨List.prefix_refl _, insert_prefix _ _⟩, id, insert_nodup _, fun m => by simp, fun m h => by simpa using mem_insert.1 h⟩
  | .seq rs, s => by rw [Rule.number, Rule.mentions, Rule.literals]; exact rules_grow rs s
  | .alt rs, s => by rw [Rule.number, Rule.mentions, Rule.literals]; exact rules_grow rs s
  | .unorderedSome rs, s => by rw [Rule.number, Rule.mentions, Rule.literals]; exact rules_grow rs s
  | .unorderedAll rs, s => by rw [Rule.number, Rule.mentions, Rule.literals]; exact rules_grow rs s
  | .opt r, s => by rw [Rule.number, Rule.mentions, Rule.literals]; exact rule_grows r s
  | .rep r, s => by rw [Rule.number, Rule.mentions, Rule.literals]; exact rule_grows r s
theorem rules_grow : ∀ (rs : Rules Name) (s : Tables), Grows s (rs.number s).2 rs.mentions rs.literals
  | .nil, s => by
    rw [Rules.number, Rules.mentions, Rules.literals]
    exact ⟨⟨List.prefix_refl _, List.prefix_refl _⟩, id, id, fun m => by simp, fun m h => .inl h⟩
  | .cons r rs, s => by
    rw [Rules.number, Rules.mentions, Rules.literals]
    have h1 := rule_grows r s
    have h2 := rules_grow rs (r.number s).2
    exact ⟨h1.le.trans h2.le, fun h => h2.nodes (h1.nodes h), fun h => h2.tokens (h1.tokens h),
      fun n => by rw [h2.mem, h1.mem, List.mem_append, or_assoc], fun n h => by
        rw [List.mem_append, ← or_assoc]
        exact (h2.lit n h).imp_left (h1.lit n)⟩
end

mutual
theorem rule_resolve : ∀ (r : Rule Name) (s t : Tables), (r.number s).2.Le t →
    (r.number s).1.resolve t.nodes t.tokens = some r
  | .labeled _ r, s, t, h => by rw [Rule.number] at h ⊢; rw [Rule.resolve, rule_resolve r s t h]; rfl
  | .node n, s, t, h => by
    rw [Rule.number] at h ⊢
    rw [Rule.resolve, prefix_get h.1 (insert_get n s.nodes)]
    rfl
  | .token n, s, t, h => by
    rw [Rule.number] at h ⊢
    rw [Rule.resolve, prefix_get h.2 (insert_get n s.tokens)]
    rfl
  | .seq rs, s, t, h => by rw [Rule.number] at h ⊢; rw [Rule.resolve, rules_resolve rs s t h]; rfl
  | .alt rs, s, t, h => by rw [Rule.number] at h ⊢; rw [Rule.resolve, rules_resolve rs s t h]; rfl
  | .unorderedSome rs, s, t, h => by rw [Rule.number] at h ⊢; rw [Rule.resolve, rules_resolve rs s t h]; rfl
  | .unorderedAll rs, s, t, h => by rw [Rule.number] at h ⊢; rw [Rule.resolve, rules_resolve rs s t h]; rfl
  | .opt r, s, t, h => by rw [Rule.number] at h ⊢; rw [Rule.resolve, rule_resolve r s t h]; rfl
  | .rep r, s, t, h => by rw [Rule.number] at h ⊢; rw [Rule.resolve, rule_resolve r s t h]; rfl
theorem rules_resolve : ∀ (rs : Rules Name) (s t : Tables), (rs.number s).2.Le t →
    (rs.number s).1.resolve t.nodes t.tokens = some rs
  | .nil, s, t, h => by rw [Rules.number, Rules.resolve]
  | .cons r rs, s, t, h => by
    rw [Rules.number] at h ⊢
    rw [Rules.resolve, rule_resolve r s t ((rules_grow rs _).le.trans h), rules_resolve rs _ t h]
end

/-! ## Definitions -/

/-- The rules that have been stored are those of `done`. -/
inductive Stored (s : Tables) : Defs → File → Prop
  | nil : Stored s [] []
  | snoc {ds : Defs} {f : File} {i : Nat} {r : Rule Nat} {n : Name} {w : Whole} (h : Stored s ds f)
    (hi : s.nodes[i]? = some n) (hr : ∀ t, s.Le t → r.resolve t.nodes t.tokens = some w.rule) :
    Stored s (ds ++ [(i, r)]) (f ++ [(n, w)])

theorem Stored.mono {s t : Tables} {ds : Defs} {f : File} (h : Stored s ds f) (hl : s.Le t) : Stored t ds f := by
  induction h with
  | nil => exact .nil
  | snoc _ hi hr ih => exact .snoc ih (prefix_get hl.1 hi) fun u hu => hr u (hl.trans hu)

theorem Stored.def_of {s : Tables} {ds : Defs} {f : File} (h : Stored s ds f) {i : Nat} {r : Rule Nat} (hm : (i, r) ∈ ds) :
    ∃ n ∈ f.map Prod.fst, s.nodes[i]? = some n := by
  induction h with
  | nil => cases hm
  | snoc _ hi _ ih =>
    rcases List.mem_append.1 hm with hm | hm
    · obtain ⟨n, h1, h2⟩ := ih hm
      exact ⟨n, by simp at h1 ⊢; exact .inl h1, h2⟩
    · simp at hm
      obtain ⟨rfl, rfl⟩ := hm
      exact ⟨_, by simp, hi⟩

theorem Stored.of_def {s : Tables} {ds : Defs} {f : File} (h : Stored s ds f) {n : Name} {w : Whole} (hm : (n, w) ∈ f) :
    ∃ i r, (i, r) ∈ ds ∧ s.nodes[i]? = some n ∧ r.resolve s.nodes s.tokens = some w.rule := by
  induction h with
  | nil => cases hm
  | snoc _ hi hr ih =>
    rcases List.mem_append.1 hm with hm | hm
    · obtain ⟨i, r, h1, h2⟩ := ih hm
      exact ⟨i, r, by simp [h1], h2⟩
    · simp at hm
      obtain ⟨rfl, rfl⟩ := hm
      exact ⟨_, _, by simp, hi, hr s ⟨List.prefix_refl _, List.prefix_refl _⟩⟩

theorem lookup_mem {i : Nat} {r : Rule Nat} {ds : Defs} (h : ds.lookup i = some r) : (i, r) ∈ ds := by
  induction ds with
  | nil => cases h
  | cons d ds ih =>
    obtain ⟨j, q⟩ := d
    rw [List.lookup_cons] at h
    split at h
    · rename_i e
      simp at e
      subst e
      cases h
      simp
    · simp [ih h]

theorem lookup_isSome {i : Nat} {r : Rule Nat} {ds : Defs} (h : (i, r) ∈ ds) : (ds.lookup i).isSome := by
  induction ds with
  | nil => cases h
  | cons d ds ih =>
    obtain ⟨j, q⟩ := d
    rw [List.lookup_cons]
    split
    · rfl
    · rename_i e
      rcases List.mem_cons.1 h with h | h
      · cases h
        simp at e
      · exact ih h

/-- A name has a rule if and only if it has been defined. -/
theorem Stored.defined {s : Tables} {ds : Defs} {f : File} (h : Stored s ds f) (hn : s.nodes.Nodup) (n : Name) :
    (ds.lookup (position n s.nodes)).isSome ↔ n ∈ f.map Prod.fst := by
  constructor
  · intro hs
    obtain ⟨r, hr⟩ := Option.isSome_iff_exists.1 hs
    obtain ⟨m, h1, h2⟩ := h.def_of (lookup_mem hr)
    by_cases hm : n ∈ s.nodes
    · rw [position_get n _ hm] at h2
      cases h2
      exact h1
    · rw [position_new n _ hm] at h2
      simp at h2
  · intro hm
    obtain ⟨⟨m, w⟩, hd, rfl⟩ := List.mem_map.1 hm
    obtain ⟨i, r, h1, h2, -⟩ := h.of_def hd
    have hmem : m ∈ s.nodes := List.mem_of_getElem? h2
    have h3 := position_get m _ hmem
    obtain ⟨l1, e1⟩ := List.getElem?_eq_some_iff.1 h2
    obtain ⟨l2, e2⟩ := List.getElem?_eq_some_iff.1 h3
    have : i = position m s.nodes := (List.getElem_inj hn).1 (e1.trans e2.symm)
    exact this ▸ lookup_isSome h1

/-- What holds before each definition. -/
structure Inv (s : Tables) (ds : Defs) (f : File) : Prop where
  nodes : s.nodes.Nodup
  tokens : s.tokens.Nodup
  stored : Stored s ds f
  mem : ∀ n, n ∈ s.nodes ↔ n ∈ f.map Prod.fst ∨ ∃ d ∈ f, n ∈ d.2.rule.mentions
  lit : ∀ n ∈ s.tokens, ∃ d ∈ f, n ∈ d.2.rule.literals

theorem Inv.step {s : Tables} {ds : Defs} {f : File} (h : Inv s ds f) (n : Name) (w : Whole) :
    Inv (w.rule.number { s with nodes := insert n s.nodes }).2
      (ds ++ [(position n s.nodes, (w.rule.number { s with nodes := insert n s.nodes }).1)]) (f ++ [(n, w)]) := by
  have hg := rule_grows w.rule { s with nodes := insert n s.nodes }
  refine ⟨hg.nodes (insert_nodup _ h.nodes), hg.tokens h.tokens, ?_, fun m => ?_, fun m hm => ?_⟩
  · refine .snoc (h.stored.mono (Tables.Le.trans ?_ hg.le)) (prefix_get hg.le.1 (insert_get _ _))
      fun t ht => rule_resolve _ _ t ht
    exact ⟨insert_prefix _ _, List.prefix_refl _⟩
  · rw [hg.mem, mem_insert, h.mem]
    simp only [List.map_append, List.map_cons, List.map_nil, List.mem_append, List.mem_singleton, or_and_right, exists_or,
      exists_eq_left]
    grind
  · rcases hg.lit m hm with hm | hm
    · obtain ⟨d, hd, h'⟩ := h.lit m hm
      exact ⟨d, by simp [hd], h'⟩
    · exact ⟨(n, w), by simp, hm⟩

theorem File.toks_cons (n : Name) (w : Whole) (f : File) :
    File.toks ((n, w) :: f) = .node n :: .eq :: (w.toks ++ File.toks f) := by
  simp [File.toks]

theorem File.stops (f : File) : Stops (File.toks f) := by
  cases f with
  | nil => exact .nil
  | cons d f => obtain ⟨n, w⟩ := d; rw [File.toks_cons]; exact .next _ _

theorem nodes_written (f : File) : ∀ (fuel : Nat) (s : Tables) (ds : Defs) (done : File), Inv s ds done →
    ((done ++ f).map Prod.fst).Nodup → (File.toks f).length ≤ fuel →
    ∃ s' ds', nodes fuel s ds (File.toks f) = some (s', ds') ∧ Inv s' ds' (done ++ f) := by
  induction f with
  | nil =>
    intro fuel s ds done h _ _
    exact ⟨s, ds, by cases fuel <;> simp [File.toks, nodes], by simpa using h⟩
  | cons d f ih =>
    intro fuel s ds done h hn hf
    obtain ⟨n, w⟩ := d
    rw [File.toks_cons] at hf ⊢
    simp only [List.length_cons, List.length_append] at hf
    obtain ⟨fuel, rfl⟩ : ∃ g, fuel = g + 1 := ⟨fuel - 1, by omega⟩
    have hnew : ¬(ds.lookup (position n s.nodes)).isSome := by
      rw [h.stored.defined h.nodes]
      intro hm
      rw [List.map_append, List.nodup_append] at hn
      exact hn.2.2 n hm n (by simp) rfl
    rw [nodes, if_neg hnew, whole_parse w _ _ _ (by simp; omega) (File.stops f)]
    have e : done ++ (n, w) :: f = (done ++ [(n, w)]) ++ f := by simp
    obtain ⟨s', ds', h1, h2⟩ := ih fuel _ _ (done ++ [(n, w)]) (h.step n w) (e ▸ hn) (by omega)
    exact ⟨s', ds', h1, e ▸ h2⟩

theorem nodes_read : ∀ (fuel : Nat) (s : Tables) (ds : Defs) (done : File) (ts : List Kind) (s' : Tables) (ds' : Defs),
    Inv s ds done → (done.map Prod.fst).Nodup → nodes fuel s ds ts = some (s', ds') →
    ∃ f, ts = File.toks f ∧ ((done ++ f).map Prod.fst).Nodup ∧ Inv s' ds' (done ++ f) := by
  intro fuel
  induction fuel with
  | zero =>
    intro s ds done ts s' ds' h hn he
    cases ts with
    | nil => rw [nodes] at he; cases he; exact ⟨[], rfl, by simpa using hn, by simpa using h⟩
    | cons t ts => simp [nodes] at he
  | succ fuel ih =>
    intro s ds done ts s' ds' h hn he
    rw [nodes.eq_def] at he
    split at he
    · cases he; exact ⟨[], rfl, by simpa using hn, by simpa using h⟩
    · rename_i n ts hx
      split at he
      · cases he
      · rename_i hnew
        split at he
        · rename_i r s1 ts1 hr
          obtain ⟨w, rfl, rfl, rfl⟩ := (reads _).rule hr
          rw [h.stored.defined h.nodes] at hnew
          have hn' : ((done ++ [(n, w)]).map Prod.fst).Nodup := by
            rw [List.map_append, List.nodup_append]
            exact ⟨hn, by simp, fun a ha b hb => by simp at hb; subst hb; rintro rfl; exact hnew ha⟩
          cases hx
          obtain ⟨f, rfl, h2, h3⟩ := ih _ _ _ _ _ _ (h.step n w) hn' he
          exact ⟨(n, w) :: f, by rw [File.toks_cons], by simpa using h2, by simpa using h3⟩
        · cases he
    · cases he

theorem Inv.start : Inv {} [] [] := ⟨by simp, by simp, .nil, by simp, by simp⟩

theorem finish_some (ds : Defs) : ∀ (ns : List Name) (k : Nat), (∀ i n, ns[i]? = some n → (ds.lookup (k + i)).isSome) →
    ∃ l, finish ds k ns = some l
  | [], k, _ => ⟨[], rfl⟩
  | n :: ns, k, h => by
    obtain ⟨l, hl⟩ := finish_some ds ns (k + 1) fun i m hi => by
      have := h (i + 1) m (by simpa using hi)
      rwa [show k + (i + 1) = k + 1 + i by omega] at this
    obtain ⟨r, hr⟩ := Option.isSome_iff_exists.1 (h 0 n rfl)
    exact ⟨(n, r) :: l, by rw [finish, hl, show ds.lookup k = some r from hr]⟩

theorem finish_names (ds : Defs) : ∀ (ns : List Name) (k : Nat) (l : List (Name × Rule Nat)), finish ds k ns = some l →
    l.map Prod.fst = ns ∧ ∀ i n, ns[i]? = some n → ∃ r, ds.lookup (k + i) = some r ∧ (n, r) ∈ l
  | [], k, l, h => by
    rw [finish] at h
    cases h
    exact ⟨rfl, by simp⟩
  | n :: ns, k, l, h => by
    rw [finish] at h
    split at h
    · rename_i r rest hr hrest
      cases h
      obtain ⟨h1, h2⟩ := finish_names ds ns (k + 1) rest hrest
      refine ⟨by simp [h1], fun i m hi => ?_⟩
      cases i with
      | zero => cases hi; exact ⟨r, hr, by simp⟩
      | succ i =>
        obtain ⟨q, h3, h4⟩ := h2 i m (by simpa using hi)
        exact ⟨q, by rwa [show k + (i + 1) = k + 1 + i by omega], by simp [h4]⟩
    · cases h

theorem Stored.lookup {s : Tables} {ds : Defs} {f : File} (h : Stored s ds f) (hn : (f.map Prod.fst).Nodup) {n : Name}
    {w : Whole} (hm : (n, w) ∈ f) : ∃ i r, s.nodes[i]? = some n ∧ ds.lookup i = some r ∧
      r.resolve s.nodes s.tokens = some w.rule := by
  induction h with
  | nil => cases hm
  | @snoc ds f i r n' w' h hi hr ih =>
    rw [List.map_append, List.nodup_append] at hn
    rcases List.mem_append.1 hm with hm | hm
    · obtain ⟨j, q, h1, h2, h3⟩ := ih hn.1 hm
      exact ⟨j, q, h1, by rw [List.lookup_append, h2]; rfl, h3⟩
    · simp at hm
      obtain ⟨rfl, rfl⟩ := hm
      refine ⟨i, r, hi, ?_, hr s ⟨List.prefix_refl _, List.prefix_refl _⟩⟩
      have : ds.lookup i = none := by
        cases hl : ds.lookup i with
        | none => rfl
        | some q =>
          obtain ⟨m, h1, h2⟩ := h.def_of (lookup_mem hl)
          rw [hi] at h2
          cases h2
          exact absurd rfl (hn.2.2 _ h1 _ (by simp))
      rw [List.lookup_append, this]
      simp

theorem described {s : Tables} {ds : Defs} {f : File} (h : Inv s ds f) (hn : (f.map Prod.fst).Nodup)
    {l : List (Name × Rule Nat)} (hl : finish ds 0 s.nodes = some l) :
    (⟨l, s.tokens⟩ : Grammar).Describes f ∧ f.Good := by
  obtain ⟨h1, h2⟩ := finish_names _ _ _ _ hl
  have hdef : ∀ n ∈ s.nodes, n ∈ f.map Prod.fst := by
    intro n hm
    obtain ⟨r, h3, -⟩ := h2 _ n (position_get n _ hm)
    rw [Nat.zero_add] at h3
    exact (h.stored.defined h.nodes n).1 (by rw [h3]; rfl)
  refine ⟨⟨h1 ▸ h.nodes, h.tokens, h1 ▸ hdef, h.lit, fun d hd => ?_⟩, hn, fun d hd n hm => hdef n ((h.mem n).2 (.inr ⟨d, hd, hm⟩))⟩
  obtain ⟨i, r, g1, g2, g3⟩ := h.stored.lookup hn (n := d.1) (w := d.2) hd
  obtain ⟨q, g4, g5⟩ := h2 i d.1 g1
  rw [Nat.zero_add, g2] at g4
  cases g4
  exact ⟨r, g5, h1 ▸ g3⟩

/-- C81: a grammar in which every node has one rule is read, and gets the nodes and rules that are written, however
parentheses are set. -/
theorem C81_reads (f : File) (h : f.Good) : ∃ g, parse (File.toks f) = some g ∧ g.Describes f := by
  obtain ⟨s, ds, h1, h2⟩ := nodes_written f _ {} [] [] .start (by simpa using h.once) (Nat.le_refl _)
  rw [List.nil_append] at h2
  obtain ⟨l, hl⟩ := finish_some ds s.nodes 0 fun i n hi => by
    have hm : n ∈ f.map Prod.fst := by
      rcases (h2.mem n).1 (List.mem_of_getElem? hi) with h' | ⟨d, hd, h'⟩
      · exact h'
      · exact h.defined d hd n h'
    have := (h2.stored.defined h2.nodes n).2 hm
    obtain ⟨l1, e1⟩ := List.getElem?_eq_some_iff.1 hi
    obtain ⟨l2, e2⟩ := List.getElem?_eq_some_iff.1 (position_get n _ (List.mem_of_getElem? hi))
    rw [Nat.zero_add, (List.getElem_inj h2.nodes).1 (e1.trans e2.symm)]
    exact this
  refine ⟨⟨l, s.tokens⟩, ?_, (described h2 h.once hl).1⟩
  rw [parse, h1]
  simp [hl]

/-- C81: nothing else is read: tokens that are accepted are those of a grammar in which every node has one rule, and this is
the grammar that is returned. In particular nodes without a rule or with two, and different combinators without parentheses,
are refused. -/
theorem C81_only (ts : List Kind) (g : Grammar) (h : parse ts = some g) : ∃ f : File, ts = f.toks ∧ f.Good ∧ g.Describes f := by
  unfold parse at h
  split at h
  · rename_i s ds he
    obtain ⟨f, h1, h2, h3⟩ := nodes_read _ _ _ [] _ _ _ .start (by simp) he
    cases hl : finish ds 0 s.nodes with
    | none => rw [hl] at h; cases h
    | some l =>
      rw [hl] at h
      cases h
      obtain ⟨h4, h5⟩ := described (f := f) (by simpa using h3) (by simpa using h2) hl
      exact ⟨f, h1, h5, h4⟩
  · cases h

/-! ## Tokens -/

theorem isIdent_iff (c : Char) : isIdent c = true ↔ isWord c := by simp [isIdent, isWord, or_assoc]

theorem literal_written (t : Name) : ∀ (buf : Name) (rest : List Char),
    literal buf (t.flatMap escape ++ '\'' :: rest) = some (buf ++ t, rest) := by
  induction t with
  | nil =>
    intro buf rest
    rw [List.flatMap_nil, List.nil_append, literal.eq_def]
    simp
  | cons c t ih =>
    intro buf rest
    rw [List.flatMap_cons, escape]
    split
    · rename_i hc
      simp only [List.cons_append, List.nil_append, List.append_assoc]
      rw [literal.eq_def]
      simp only
      rw [if_pos trivial, if_pos (by rcases hc with rfl | rfl <;> rfl), ih]
      simp
    · rename_i hc
      simp only [List.cons_append, List.nil_append]
      rw [literal.eq_def]
      simp only
      rw [if_neg (fun h => hc (.inr h)), if_neg (fun h => hc (.inl h)), ih]
      simp

theorem literal_read : ∀ (n : Nat) (buf : Name) (cs : List Char) (b : Name) (rest : List Char), cs.length ≤ n →
    literal buf cs = some (b, rest) → ∃ t, b = buf ++ t ∧ cs = t.flatMap escape ++ '\'' :: rest := by
  intro n
  induction n with
  | zero =>
    intro buf cs b rest hn h
    cases cs with
    | nil => simp [literal] at h
    | cons c cs => simp at hn
  | succ n ih =>
    intro buf cs b rest hn h
    rw [literal.eq_def] at h
    split at h
    · cases h
    · rename_i c cs
      simp only [List.length_cons] at hn
      split at h
      · rename_i hc
        split at h
        · rename_i d ds
          split at h
          · rename_i hd
            simp only [List.length_cons] at hn
            obtain ⟨t, rfl, rfl⟩ := ih _ _ _ _ (by omega) h
            refine ⟨d :: t, by simp, ?_⟩
            have : d = '\'' ∨ d = '\\' := by simpa [isEscapable, or_comm] using hd
            simp [escape, this, hc]
          · cases h
        · cases h
      · rename_i hc
        split at h
        · rename_i hq
          cases h
          exact ⟨[], by simp, by simp [hq]⟩
        · rename_i hq
          obtain ⟨t, rfl, rfl⟩ := ih _ _ _ _ (by omega) h
          exact ⟨c :: t, by simp, by simp [escape, hc, hq]⟩

theorem takeWhile_word (n rest : List Char) (h : ∀ c ∈ n, isWord c) (ha : ∀ c, rest.head? = some c → ¬isWord c) :
    (n ++ rest).takeWhile isIdent = n ∧ (n ++ rest).dropWhile isIdent = rest := by
  induction n with
  | nil =>
    cases rest with
    | nil => simp
    | cons c cs =>
      have : isIdent c = false := by
        rw [← Bool.not_eq_true, isIdent_iff]
        exact ha c rfl
      simp [this]
  | cons c n ih =>
    have hc := (isIdent_iff c).2 (h c (by simp))
    obtain ⟨h1, h2⟩ := ih fun d hd => h d (by simp [hd])
    simp [hc, h1, h2]

/-- The characters with which words do not begin. -/
theorem word_not {c d : Char} (h : isWord c) (hd : isIdent d = false) : c ≠ d := by
  rintro rfl
  rw [(isIdent_iff c).2 h] at hd
  cases hd

theorem advance_written (k : Kind) (rest : List Char) (hk : k.Ok) (ha : k.Apart rest) :
    advance (k.text ++ rest) = some (k, rest) := by
  cases k with
  | node n =>
    obtain ⟨hne, hw⟩ := hk
    cases n with
    | nil => exact absurd rfl hne
    | cons c n =>
      have hc : isWord c := hw c (by simp)
      obtain ⟨h1, h2⟩ := takeWhile_word n rest (fun d hd => hw d (by simp [hd])) ha
      show advance (c :: (n ++ rest)) = _
      rw [advance, if_neg (word_not hc (by decide)), if_neg (word_not hc (by decide)), if_neg (word_not hc (by decide)),
        if_neg (word_not hc (by decide)), if_neg (word_not hc (by decide)), if_neg (word_not hc (by decide)),
        if_neg (word_not hc (by decide)), if_neg (word_not hc (by decide)), if_neg (word_not hc (by decide)),
        if_pos ((isIdent_iff c).2 hc), h1, h2]
  | token t =>
    show advance ('\'' :: (t.flatMap escape ++ ['\''] ++ rest)) = _
    have := literal_written t [] rest
    rw [List.append_assoc, List.singleton_append]
    simp [advance, this]
  | pipe =>
    have : rest.head? ≠ some '|' := ha
    simp [advance, Kind.text, this]
  | _ => simp [advance, Kind.text]

theorem advance_read (input rest : List Char) (k : Kind) (h : advance input = some (k, rest)) :
    input = k.text ++ rest ∧ k.Ok ∧ k.Apart rest := by
  cases input with
  | nil => simp [advance] at h
  | cons c cs =>
    rw [advance] at h
    split at h
    · rename_i hc; cases h; exact ⟨by simp [Kind.text, hc], trivial, trivial⟩
    split at h
    · rename_i hc; cases h; exact ⟨by simp [Kind.text, hc], trivial, trivial⟩
    split at h
    · rename_i hc; cases h; exact ⟨by simp [Kind.text, hc], trivial, trivial⟩
    split at h
    · rename_i hc; cases h; exact ⟨by simp [Kind.text, hc], trivial, trivial⟩
    split at h
    · rename_i hc; cases h; exact ⟨by simp [Kind.text, hc], trivial, trivial⟩
    split at h
    · rename_i hc
      split at h
      · rename_i hd
        cases h
        cases cs with
        | nil => simp at hd
        | cons d ds => simp at hd; exact ⟨by simp [Kind.text, hc, hd], trivial, trivial⟩
      · rename_i hd
        cases h
        exact ⟨by simp [Kind.text, hc], trivial, hd⟩
    split at h
    · rename_i hc
      split at h
      · rename_i hd
        cases h
        cases cs with
        | nil => simp at hd
        | cons d ds => simp at hd; exact ⟨by simp [Kind.text, hc, hd], trivial, trivial⟩
      · cases h
    split at h
    · rename_i hc; cases h; exact ⟨by simp [Kind.text, hc], trivial, trivial⟩
    split at h
    · rename_i hc
      cases hl : literal [] cs with
      | none => rw [hl] at h; cases h
      | some x =>
        obtain ⟨b, r⟩ := x
        rw [hl] at h
        cases h
        obtain ⟨t, rfl, rfl⟩ := literal_read _ _ _ _ _ (Nat.le_refl _) hl
        exact ⟨by simp [Kind.text, hc], trivial, trivial⟩
    split at h
    · rename_i hc
      cases h
      refine ⟨by simp [Kind.text, List.takeWhile_append_dropWhile], ⟨by simp, ?_⟩, ?_⟩
      · intro d hd
        rcases List.mem_cons.1 hd with rfl | hd
        · exact (isIdent_iff _).1 hc
        · exact (isIdent_iff _).1 (List.all_eq_true.1 (List.all_takeWhile) d hd)
      · intro d hd hw
        have := List.head?_dropWhile_not isIdent cs
        rw [hd] at this
        simp at this
        rw [(isIdent_iff d).2 hw] at this
        cases this
    · cases h

theorem text_pos (k : Kind) (hk : k.Ok) : 0 < k.text.length := by
  cases k <;> simp [Kind.text]
  exact List.length_pos_iff.2 hk.1

/-- A token does not begin like a gap. -/
theorem text_head (k : Kind) (hk : k.Ok) (rest : List Char) :
    ∃ c cs, k.text ++ rest = c :: cs ∧ isWs c = false ∧ c ≠ '/' := by
  cases k with
  | node n =>
    obtain ⟨hne, hw⟩ := hk
    cases n with
    | nil => exact absurd rfl hne
    | cons c n =>
      have hc : isWord c := hw c (by simp)
      refine ⟨c, n ++ rest, rfl, ?_, word_not hc (by decide)⟩
      simp only [isWs, Bool.or_eq_false_iff, beq_eq_false_iff_ne]
      exact ⟨⟨word_not hc (by decide), word_not hc (by decide)⟩, word_not hc (by decide)⟩
  | _ => exact ⟨_, _, rfl, by decide, by decide⟩

theorem afterLine_length (cs : List Char) : (afterLine cs).length ≤ cs.length := by
  induction cs with
  | nil => exact Nat.le_refl _
  | cons c cs ih =>
    rw [afterLine]
    split <;> simp <;> omega

theorem dropWhile_length (cs : List Char) : (cs.dropWhile isWs).length ≤ cs.length :=
  (List.dropWhile_suffix _).length_le

theorem skipComment_length (cs : List Char) : (skipComment cs).length ≤ cs.length := by
  unfold skipComment
  split
  · exact afterLine_length cs
  · exact Nat.le_refl _

/-- The fuel does not matter. -/
theorem tokenizeAux_fuel : ∀ (f : Nat) (cs : List Char), cs.length + 1 ≤ f → tokenizeAux f cs = tokenize cs := by
  have step : ∀ (n f g : Nat) (cs : List Char), cs.length ≤ n → cs.length + 1 ≤ f → cs.length + 1 ≤ g →
      tokenizeAux f cs = tokenizeAux g cs := by
    intro n
    induction n with
    | zero =>
      intro f g cs hn hf hg
      obtain ⟨f, rfl⟩ : ∃ x, f = x + 1 := ⟨f - 1, by omega⟩
      obtain ⟨g, rfl⟩ : ∃ x, g = x + 1 := ⟨g - 1, by omega⟩
      cases cs with
      | nil => simp [tokenizeAux]
      | cons c cs => simp at hn
    | succ n ih =>
      intro f g cs hn hf hg
      obtain ⟨f, rfl⟩ : ∃ x, f = x + 1 := ⟨f - 1, by omega⟩
      obtain ⟨g, rfl⟩ : ∃ x, g = x + 1 := ⟨g - 1, by omega⟩
      rw [tokenizeAux, tokenizeAux]
      split
      · rfl
      simp only
      split
      · split
        · rename_i k rest ha
          obtain ⟨rfl, hk, -⟩ := advance_read _ _ _ ha
          have := text_pos k hk
          rw [List.length_append] at hn hf hg
          rw [ih f g rest (by omega) (by omega) (by omega)]
        · rfl
      · rename_i hl
        have h1 := skipComment_length (cs.dropWhile isWs)
        have h2 := dropWhile_length cs
        exact ih f g _ (by omega) (by omega) (by omega)
  intro f cs hf
  exact step cs.length f _ cs (Nat.le_refl _) hf (Nat.le_refl _)

theorem tokenize_skip (c : Char) (cs : List Char)
    (h : (skipComment ((c :: cs).dropWhile isWs)).length ≠ (c :: cs).length) :
    tokenize (c :: cs) = tokenize (skipComment ((c :: cs).dropWhile isWs)) := by
  have h1 := skipComment_length ((c :: cs).dropWhile isWs)
  have h2 := dropWhile_length (c :: cs)
  rw [tokenize, tokenizeAux, if_neg (by simp)]
  simp only
  rw [if_neg h, tokenizeAux_fuel _ _ (by omega)]

theorem tokenize_advance (c : Char) (cs : List Char)
    (h : (skipComment ((c :: cs).dropWhile isWs)).length = (c :: cs).length) :
    tokenize (c :: cs) = match advance (c :: cs) with
      | some (k, rest) => (tokenize rest).map (k :: ·)
      | none => none := by
  rw [tokenize, tokenizeAux, if_neg (by simp)]
  simp only
  rw [if_pos h]
  cases ha : advance (c :: cs) with
  | none => rfl
  | some x =>
    obtain ⟨k, rest⟩ := x
    obtain ⟨he, hk, -⟩ := advance_read _ _ _ ha
    have := text_pos k hk
    have hl := congrArg List.length he
    rw [List.length_append] at hl
    simp only
    rw [tokenizeAux_fuel _ _ (by omega)]

theorem skip_same (cs : List Char) (h : (skipComment (cs.dropWhile isWs)).length = cs.length) :
    skipComment (cs.dropWhile isWs) = cs := by
  have h1 := skipComment_length (cs.dropWhile isWs)
  have h2 := dropWhile_length cs
  have e : cs.dropWhile isWs = cs := (List.dropWhile_suffix _).eq_of_length (by omega)
  rw [e] at h ⊢
  unfold skipComment at h ⊢
  split
  · rename_i hp
    rw [if_pos hp] at h
    cases cs with
    | nil => rfl
    | cons c cs =>
      rw [afterLine] at h
      have := afterLine_length cs
      split at h <;> simp at h <;> omega
  · rfl

theorem tokenize_ws (c : Char) (cs : List Char) (hc : isWs c = true) : tokenize (c :: cs) = tokenize cs := by
  have e : (c :: cs).dropWhile isWs = cs.dropWhile isWs := by simp [hc]
  have h1 := skipComment_length (cs.dropWhile isWs)
  have h2 := dropWhile_length cs
  rw [tokenize_skip c cs (by rw [e]; simp; omega), e]
  cases cs with
  | nil => rfl
  | cons d ds =>
    by_cases h : (skipComment ((d :: ds).dropWhile isWs)).length = (d :: ds).length
    · rw [skip_same _ h]
    · rw [tokenize_skip d ds h]

theorem afterLine_line (line g : List Char) (h : '\n' ∉ line) : afterLine (line ++ '\n' :: g) = g := by
  induction line with
  | nil => rfl
  | cons c line ih =>
    rw [List.cons_append, afterLine, if_neg (fun e => h (by simp [e])), ih (fun h' => h (by simp [h']))]

theorem afterLine_last (line : List Char) (h : '\n' ∉ line) : afterLine line = [] := by
  induction line with
  | nil => rfl
  | cons c line ih => rw [afterLine, if_neg (fun e => h (by simp [e])), ih (fun h' => h (by simp [h']))]

theorem slash_notin {line : List Char} (h : '\n' ∉ line) : '\n' ∉ '/' :: '/' :: line := by
  simp [h]

theorem tokenize_gap {g : List Char} (h : Gap g) (rest : List Char) : tokenize (g ++ rest) = tokenize rest := by
  induction h with
  | nil => rfl
  | ws hc _ ih => rw [List.cons_append, tokenize_ws _ _ (by rcases hc with rfl | rfl | rfl <;> rfl), ih]
  | @comment line g hl _ ih =>
    have e : skipComment (('/' :: '/' :: (line ++ '\n' :: (g ++ rest))).dropWhile isWs) = g ++ rest := by
      rw [List.dropWhile_cons_of_neg (by decide), skipComment, if_pos (by simp [List.isPrefixOf])]
      exact afterLine_line ('/' :: '/' :: line) _ (slash_notin hl)
    have e' : '/' :: '/' :: (line ++ '\n' :: g) ++ rest = '/' :: '/' :: (line ++ '\n' :: (g ++ rest)) := by simp
    rw [e', tokenize_skip _ _ (by rw [e]; simp; omega), e, ih]

theorem tokenize_written {ks : List Kind} {text : List Char} (h : Text ks text) : tokenize text = some ks := by
  induction h with
  | nil h => have := tokenize_gap h []; rw [List.append_nil] at this; rw [this]; rfl
  | @last g line h hl =>
    rw [tokenize_gap h]
    have e : skipComment (('/' :: '/' :: line).dropWhile isWs) = [] := by
      rw [List.dropWhile_cons_of_neg (by decide), skipComment, if_pos (by simp [List.isPrefixOf])]
      exact afterLine_last _ (slash_notin hl)
    rw [tokenize_skip _ _ (by rw [e]; simp), e]
    rfl
  | @cons g rest k ks hg hk ha _ ih =>
    rw [tokenize_gap hg]
    obtain ⟨c, cs, e, hc, hs⟩ := text_head k hk rest
    have hadv := advance_written k rest hk ha
    rw [e] at hadv ⊢
    have : skipComment ((c :: cs).dropWhile isWs) = c :: cs := by
      rw [List.dropWhile_cons_of_neg (by simp [hc]), skipComment, if_neg (by simp [List.isPrefixOf, Ne.symm hs])]
    rw [tokenize_advance _ _ (by rw [this]), hadv]
    simp only
    rw [ih]
    rfl

theorem Gap.append {g g' : List Char} (h : Gap g) (h' : Gap g') : Gap (g ++ g') := by
  induction h with
  | nil => exact h'
  | ws hc _ ih => exact .ws hc ih
  | @comment line g hl _ ih =>
    have e' : '/' :: '/' :: (line ++ '\n' :: g) ++ g' = '/' :: '/' :: (line ++ '\n' :: (g ++ g')) := by simp
    rw [e']
    exact .comment hl ih

theorem Text.gap {g text : List Char} {ks : List Kind} (hg : Gap g) (h : Text ks text) : Text ks (g ++ text) := by
  cases h with
  | nil h => exact .nil (hg.append h)
  | last h hl => rw [← List.append_assoc]; exact .last (hg.append h) hl
  | cons h hk ha ht => rw [← List.append_assoc]; exact .cons (hg.append h) hk ha ht

theorem ws_gap (cs : List Char) : ∃ g, Gap g ∧ cs = g ++ cs.dropWhile isWs := by
  induction cs with
  | nil => exact ⟨[], .nil, rfl⟩
  | cons c cs ih =>
    by_cases hc : isWs c = true
    · obtain ⟨g, hg, e⟩ := ih
      refine ⟨c :: g, .ws ?_ hg, ?_⟩
      · simpa [isWs, or_assoc] using hc
      · rw [List.dropWhile_cons_of_pos hc, List.cons_append, ← e]
    · exact ⟨[], .nil, by rw [List.dropWhile_cons_of_neg hc]; rfl⟩

theorem afterLine_split (cs : List Char) : (∃ line, '\n' ∉ line ∧ cs = line ++ '\n' :: afterLine cs) ∨
    ('\n' ∉ cs ∧ afterLine cs = []) := by
  induction cs with
  | nil => exact .inr ⟨by simp, rfl⟩
  | cons c cs ih =>
    rw [afterLine]
    split
    · rename_i hc
      exact .inl ⟨[], by simp, by simp [hc]⟩
    · rename_i hc
      rcases ih with ⟨line, h1, h2⟩ | ⟨h1, h2⟩
      · exact .inl ⟨c :: line, by simp [h1, Ne.symm hc], by rw [List.cons_append, ← h2]⟩
      · exact .inr ⟨by simp [h1, Ne.symm hc], h2⟩

theorem text_skip {cs : List Char} {ks : List Kind} (h : Text ks (skipComment cs)) : Text ks cs := by
  unfold skipComment at h
  split at h
  · rename_i hp
    obtain ⟨ds, rfl⟩ := List.isPrefixOf_iff_prefix.1 hp
    have e : afterLine (['/', '/'] ++ ds) = afterLine ds := by simp [afterLine]
    rw [e] at h
    rcases afterLine_split ds with ⟨line, h1, h2⟩ | ⟨h1, h2⟩
    · have : ['/', '/'] ++ ds = ('/' :: '/' :: (line ++ '\n' :: [])) ++ afterLine ds := by
        simp only [List.cons_append, List.nil_append, List.append_assoc]
        rw [← h2]
      rw [this]
      exact h.gap (.comment h1 .nil)
    · rw [h2] at h
      have hk : ks = [] := by
        have h3 := tokenize_written h
        cases h3
        rfl
      subst hk
      exact .last .nil h1
  · exact h

theorem tokenize_read : ∀ (n : Nat) (text : List Char) (ks : List Kind), text.length ≤ n → tokenize text = some ks →
    Text ks text := by
  intro n
  induction n with
  | zero =>
    intro text ks hn h
    cases text with
    | nil => cases h; exact .nil .nil
    | cons c cs => simp at hn
  | succ n ih =>
    intro text ks hn h
    cases text with
    | nil => cases h; exact .nil .nil
    | cons c cs =>
      have h1 := skipComment_length ((c :: cs).dropWhile isWs)
      have h2 := dropWhile_length (c :: cs)
      by_cases hs : (skipComment ((c :: cs).dropWhile isWs)).length = (c :: cs).length
      · rw [tokenize_advance c cs hs] at h
        cases ha : advance (c :: cs) with
        | none => rw [ha] at h; cases h
        | some x =>
          obtain ⟨k, rest⟩ := x
          rw [ha] at h
          obtain ⟨he, hk, hap⟩ := advance_read _ _ _ ha
          have hp := text_pos k hk
          rw [he, List.length_append] at hn
          cases ht : tokenize rest with
          | none => simp [ht] at h
          | some ks' =>
            simp [ht] at h
            subst h
            rw [he]
            exact .cons (g := []) .nil hk hap (ih rest ks' (by omega) ht)
      · rw [tokenize_skip c cs hs] at h
        have ht := text_skip (ih _ ks (by omega) h)
        obtain ⟨g, hg, e⟩ := ws_gap (c :: cs)
        rw [e]
        exact ht.gap hg

/-- C81: a text has the tokens that are written in it, wherever there are blanks and comments; other texts have none. -/
theorem C81_tokens (text : List Char) (ks : List Kind) : tokenize text = some ks ↔ Text ks text :=
  ⟨tokenize_read _ text ks (Nat.le_refl _), tokenize_written⟩

/-- C81: for texts: `from_str` succeeds exactly for the texts of grammars in which every node has one rule, with the grammar
that is written there. -/
theorem C81_text (text : List Char) : (∀ f : File, Text f.toks text → f.Good → ∃ g, fromStr text = some g ∧ g.Describes f) ∧
    ∀ g, fromStr text = some g → ∃ f : File, Text f.toks text ∧ f.Good ∧ g.Describes f := by
  constructor
  · intro f ht hf
    obtain ⟨g, h1, h2⟩ := C81_reads f hf
    exact ⟨g, by rw [fromStr, (C81_tokens _ _).2 ht]; exact h1, h2⟩
  · intro g h
    unfold fromStr at h
    cases ht : tokenize text with
    | none => rw [ht] at h; cases h
    | some ks =>
      rw [ht] at h
      obtain ⟨f, rfl, hf, hd⟩ := C81_only ks g h
      exact ⟨f, (C81_tokens _ _).1 ht, hf, hd⟩

/-- C81: there is one way to read a text: files with the same tokens have the same names and the same rules. -/
theorem C81_unambiguous (f f' : File) (h : f.Good) (h' : f'.Good) (he : f.toks = f'.toks) :
    ∀ d ∈ f, ∃ d' ∈ f', d'.1 = d.1 ∧ d'.2.rule = d.2.rule := by
  obtain ⟨g, h1, h2⟩ := C81_reads f h
  obtain ⟨g', h1', h2'⟩ := C81_reads f' h'
  rw [he, h1'] at h1
  cases h1
  intro d hd
  obtain ⟨r, h3, h4⟩ := h2.all d hd
  have hm := h2'.only d.1 (List.mem_map.2 ⟨_, h3, rfl⟩)
  obtain ⟨d', hd', e⟩ := List.mem_map.1 hm
  obtain ⟨r', h5, h6⟩ := h2'.all d' hd'
  refine ⟨d', hd', e, ?_⟩
  obtain ⟨i, hi⟩ := List.mem_iff_getElem?.1 h3
  obtain ⟨j, hj⟩ := List.mem_iff_getElem?.1 h5
  obtain ⟨li, ei⟩ := List.getElem?_eq_some_iff.1 hi
  obtain ⟨lj, ej⟩ := List.getElem?_eq_some_iff.1 hj
  have hij : i = j := by
    refine (List.getElem_inj (h₀ := by simpa using li) (h₁ := by simpa using lj) h2.once).1 ?_
    rw [List.getElem_map, List.getElem_map, ei, ej, e]
  subst hij
  rw [ei] at ej
  obtain ⟨-, rfl⟩ := Prod.mk.inj ej
  rw [h4] at h6
  exact (Option.some.inj h6).symm

/-! ## Examples -/

/-- `A = 'b' (B | c:A)*`, `B = 'b'?`. -/
def exampleFile : File :=
  [(['A'], .mk (.mk (.base (.token ['b'])) (.cons (.rep (.paren (.mk (.mk (.base (.node ['B'])) .nil) .pipe rfl
    (.cons (.mk (.labeled ['c'] (.base (.node ['A']))) .nil) .nil)))) .nil)) .pipe rfl .nil),
   (['B'], .mk (.mk (.opt (.token ['b'])) .nil) .pipe rfl .nil)]

/-- The hypotheses of `C81_reads` hold, and this is the result. -/
example : exampleFile.Good := ⟨by decide, by simp [exampleFile, Whole.rule, Seq.rule, Atom.rule, Base.rule, Atoms.rules,
  Parts.rules, Rule.mentions, Rules.mentions]⟩

/-- The text of the example, with blanks and a comment. -/
theorem example_tokens : tokenize "A = 'b' (B | c:A)* // twice\nB='b'?".toList = some exampleFile.toks := by decide +kernel

example : ∃ g, fromStr "A = 'b' (B | c:A)* // twice\nB='b'?".toList = some g ∧ g.Describes exampleFile :=
  (C81_text _).1 exampleFile ((C81_tokens _ _).1 example_tokens) ⟨by decide, by simp [exampleFile, Whole.rule, Seq.rule,
    Atom.rule, Base.rule, Atoms.rules, Parts.rules, Rule.mentions, Rules.mentions]⟩

/-- No rule, two rules, different combinators, a combinator first. -/
example : (fromStr "A = B".toList).isNone := by decide +kernel
example : (fromStr "A = 'a' A = 'b'".toList).isNone := by decide +kernel
example : (fromStr "A = 'a' | 'b' || 'c'".toList).isNone := by decide +kernel
example : (fromStr "A = | 'b'".toList).isNone := by decide +kernel
example : (fromStr "A = 'a' | ('b' || 'c')".toList).isSome := by decide +kernel

end Verif.Ungrammar
