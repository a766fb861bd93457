import Verif.Model.Resolver

namespace Verif.Resolver
variable {T : Type}

/-- Items strictly sorted by path. -/
def Sorted (items : List (Item T)) : Prop :=
  items.Pairwise fun a b => compare a.path b.path = .lt

theorem insertIdx_eq {α} (l : List α) (i : Nat) (a : α) (h : i ≤ l.length) :
    l.insertIdx i a = l.take i ++ a :: l.drop i := by
  induction l generalizing i with
  | nil => simp at h; subst h; rfl
  | cons x l ih =>
    cases i with
    | zero => rfl
    | succ i => simp at h; simp [ih i h]

theorem split_at {α} {l : List α} {i : Nat} {a : α} (h : l[i]? = some a) :
    l = l.take i ++ a :: l.drop (i + 1) := by
  obtain ⟨hi, rfl⟩ := List.getElem?_eq_some_iff.mp h
  simp

theorem cmp_self (p : Path) : compare p p = .eq := Std.ReflCmp.compare_self

theorem eq_of_cmp {p q : Path} (h : compare p q = .eq) : p = q := Std.LawfulEqCmp.eq_of_compare h

theorem lt_trans {a b c : Path} (h1 : compare a b = .lt) (h2 : compare b c = .lt) :
    compare a c = .lt := Std.TransCmp.lt_trans h1 h2

theorem gt_iff_lt {a b : Path} : compare a b = .gt ↔ compare b a = .lt := Std.OrientedCmp.gt_iff_lt

theorem lt_ne {a b : Path} (h : compare a b = .lt) : a ≠ b := by
  rintro rfl; rw [cmp_self] at h; cases h

theorem Sorted.mono {items : List (Item T)} (h : Sorted items) (path : Path) :
    items.Pairwise fun a b =>
      (compare a.path path = .gt → compare b.path path = .gt) ∧
      (compare b.path path = .lt → compare a.path path = .lt) := by
  refine h.imp ?_
  intro a b hab
  refine ⟨fun h => ?_, fun h => lt_trans hab h⟩
  rw [gt_iff_lt] at *
  exact lt_trans h hab

theorem search_spec {items : List (Item T)} (h : Sorted items) (path : Path) :
    (∃ i a, search items path = .ok i ∧ items[i]? = some a ∧ a.path = path) ∨
    (∃ i, search items path = .error i ∧ i ≤ items.length ∧
      (∀ a ∈ items.take i, compare a.path path = .lt) ∧
      ∀ a ∈ items.drop i, compare path a.path = .lt) := by
  rcases BinarySearch.binarySearchBy_spec items _ (h.mono path) with
    ⟨i, a, h1, h2, h3⟩ | ⟨i, h1, h2, h3, h4⟩
  · exact .inl ⟨i, a, h1, h2, eq_of_cmp h3⟩
  · exact .inr ⟨i, h1, h2, h3, fun a ha => gt_iff_lt.mp (h4 a ha)⟩

theorem add_spec (r : Resolver T) (h : Sorted r.items) (path : Path) (value : T) :
    Sorted (add r path value).1.items ∧ (add r path value).1.fallback = r.fallback ∧
    (∀ d v, (⟨d, v⟩ : Item T) ∈ (add r path value).1.items ↔
      (d = path ∧ v = value) ∨ (d ≠ path ∧ ⟨d, v⟩ ∈ r.items)) ∧
    (∀ v, (add r path value).2 = some v ↔ ⟨path, v⟩ ∈ r.items) := by
  rcases search_spec h path with ⟨i, a, h1, h2, h3⟩ | ⟨i, h1, h2, h3, h4⟩
  · have hi : i < r.items.length := (List.getElem?_eq_some_iff.mp h2).1
    have hs := split_at h2
    generalize hL : r.items.take i = L at hs
    generalize hR : r.items.drop (i + 1) = R at hs
    have hset : r.items.set i { a with value } = L ++ { a with value } :: R := by
      rw [List.set_eq_take_append_cons_drop, if_pos hi, hL, hR]
    have hL' : ∀ x ∈ L, compare x.path path = .lt := by
      intro x hx; rw [hs] at h; unfold Sorted at h
      rw [List.pairwise_append] at h; rw [← h3]; exact h.2.2 x hx a (by simp)
    have hR' : ∀ x ∈ R, compare path x.path = .lt := by
      intro x hx; rw [hs] at h; unfold Sorted at h
      rw [List.pairwise_append, List.pairwise_cons] at h; rw [← h3]; exact h.2.1.1 x hx
    simp only [add, h1, h2, hset]
    refine ⟨?_, trivial, ?_, ?_⟩
    · rw [hs] at h
      unfold Sorted at *
      rw [List.pairwise_append, List.pairwise_cons] at *
      refine ⟨h.1, ⟨fun x hx => h.2.1.1 x hx, h.2.1.2⟩, ?_⟩
      intro x hx y hy
      rcases List.mem_cons.mp hy with rfl | hy
      · exact h.2.2 x hx a (by simp)
      · exact h.2.2 x hx y (by simp [hy])
    · intro d v
      rw [hs]
      have e1 : ∀ v, (⟨d, v⟩ : Item T) ∈ L → d ≠ path := fun v hm => lt_ne (hL' _ hm)
      have e2 : ∀ v, (⟨d, v⟩ : Item T) ∈ R → d ≠ path := fun v hm => (lt_ne (hR' _ hm)).symm
      cases a with
      | mk p w =>
      simp only at h3
      subst h3
      simp only [List.mem_append, List.mem_cons, Item.mk.injEq]
      constructor
      · rintro (hm | hm | hm)
        · exact .inr ⟨e1 v hm, .inl hm⟩
        · exact .inl hm
        · exact .inr ⟨e2 v hm, .inr (.inr hm)⟩
      · rintro (hm | ⟨hne, hm | hm | hm⟩)
        · exact .inr (.inl hm)
        · exact .inl hm
        · exact absurd hm.1 hne
        · exact .inr (.inr hm)
    · intro v
      rw [hs]
      cases a with
      | mk p w =>
      simp only at h3
      subst h3
      simp only [Option.some.injEq, List.mem_append, List.mem_cons, Item.mk.injEq, true_and]
      constructor
      · exact fun h => .inr (.inl h.symm)
      · rintro (hm | hm | hm)
        · exact absurd rfl (lt_ne (hL' _ hm))
        · exact hm.symm
        · exact absurd rfl (lt_ne (hR' _ hm))
  · have hins : r.items.insertIdx i { path, value } =
        r.items.take i ++ { path, value } :: r.items.drop i := insertIdx_eq _ _ _ h2
    have hs : r.items = r.items.take i ++ r.items.drop i := by simp
    generalize hL : r.items.take i = L at hs hins h3
    generalize hR : r.items.drop i = R at hs hins h4
    simp only [add, h1, hins]
    refine ⟨?_, trivial, ?_, ?_⟩
    · rw [hs] at h
      unfold Sorted at *
      rw [List.pairwise_append] at *
      rw [List.pairwise_cons]
      refine ⟨h.1, ⟨h4, h.2.1⟩, ?_⟩
      intro x hx y hy
      rcases List.mem_cons.mp hy with rfl | hy
      · exact h3 x hx
      · exact h.2.2 x hx y hy
    · intro d v
      rw [hs]
      have e1 : ∀ v, (⟨d, v⟩ : Item T) ∈ L → d ≠ path := fun v hm => lt_ne (h3 _ hm)
      have e2 : ∀ v, (⟨d, v⟩ : Item T) ∈ R → d ≠ path := fun v hm => (lt_ne (h4 _ hm)).symm
      simp only [List.mem_append, List.mem_cons, Item.mk.injEq]
      constructor
      · rintro (hm | hm | hm)
        · exact .inr ⟨e1 v hm, .inl hm⟩
        · exact .inl hm
        · exact .inr ⟨e2 v hm, .inr hm⟩
      · rintro (hm | ⟨_, hm | hm⟩)
        · exact .inr (.inl hm)
        · exact .inl hm
        · exact .inr (.inr hm)
    · intro v
      rw [hs]
      simp only [reduceCtorEq, List.mem_append, false_iff]
      rintro (hm | hm)
      · exact lt_ne (h3 _ hm) rfl
      · exact lt_ne (h4 _ hm) rfl

theorem remove_spec (r : Resolver T) (h : Sorted r.items) (path : Path) :
    Sorted (remove r path).1.items ∧ (remove r path).1.fallback = r.fallback ∧
    (∀ d v, (⟨d, v⟩ : Item T) ∈ (remove r path).1.items ↔ d ≠ path ∧ ⟨d, v⟩ ∈ r.items) ∧
    (∀ v, (remove r path).2 = some v ↔ ⟨path, v⟩ ∈ r.items) := by
  rcases search_spec h path with ⟨i, a, h1, h2, h3⟩ | ⟨i, h1, h2, h3, h4⟩
  · have hs := split_at h2
    generalize hL : r.items.take i = L at hs
    generalize hR : r.items.drop (i + 1) = R at hs
    have her : r.items.eraseIdx i = L ++ R := by
      rw [List.eraseIdx_eq_take_drop_succ, hL, hR]
    have hL' : ∀ x ∈ L, compare x.path path = .lt := by
      intro x hx; rw [hs] at h; unfold Sorted at h
      rw [List.pairwise_append] at h; rw [← h3]; exact h.2.2 x hx a (by simp)
    have hR' : ∀ x ∈ R, compare path x.path = .lt := by
      intro x hx; rw [hs] at h; unfold Sorted at h
      rw [List.pairwise_append, List.pairwise_cons] at h; rw [← h3]; exact h.2.1.1 x hx
    simp only [remove, h1, h2, her]
    refine ⟨?_, trivial, ?_, ?_⟩
    · rw [hs] at h
      unfold Sorted at *
      rw [List.pairwise_append] at *
      refine ⟨h.1, (List.pairwise_cons.mp h.2.1).2, fun x hx y hy => h.2.2 x hx y (by simp [hy])⟩
    · intro d v
      rw [hs]
      have e1 : ∀ v, (⟨d, v⟩ : Item T) ∈ L → d ≠ path := fun v hm => lt_ne (hL' _ hm)
      have e2 : ∀ v, (⟨d, v⟩ : Item T) ∈ R → d ≠ path := fun v hm => (lt_ne (hR' _ hm)).symm
      cases a with
      | mk p w =>
      simp only at h3
      subst h3
      simp only [List.mem_append, List.mem_cons, Item.mk.injEq]
      constructor
      · rintro (hm | hm)
        · exact ⟨e1 v hm, .inl hm⟩
        · exact ⟨e2 v hm, .inr (.inr hm)⟩
      · rintro ⟨hne, hm | hm | hm⟩
        · exact .inl hm
        · exact absurd hm.1 hne
        · exact .inr hm
    · intro v
      rw [hs]
      cases a with
      | mk p w =>
      simp only at h3
      subst h3
      simp only [Option.map_some, Option.some.injEq, List.mem_append, List.mem_cons, Item.mk.injEq,
        true_and]
      constructor
      · exact fun h => .inr (.inl h.symm)
      · rintro (hm | hm | hm)
        · exact absurd rfl (lt_ne (hL' _ hm))
        · exact hm.symm
        · exact absurd rfl (lt_ne (hR' _ hm))
  · have hs : r.items = r.items.take i ++ r.items.drop i := by simp
    have hne : ∀ x ∈ r.items, x.path ≠ path := by
      intro x hx
      rw [hs, List.mem_append] at hx
      rcases hx with hx | hx
      · exact lt_ne (h3 x hx)
      · exact (lt_ne (h4 x hx)).symm
    simp only [remove, h1]
    refine ⟨h, trivial, ?_, ?_⟩
    · intro d v
      exact ⟨fun hm => ⟨hne _ hm, hm⟩, fun hm => hm.2⟩
    · intro v
      simp only [reduceCtorEq, false_iff]
      exact fun hm => hne _ hm rfl

theorem compare_prefix_lt (d e : Path) (h : d <+: e) (hne : d ≠ e) : compare d e = .lt := by
  obtain ⟨s, rfl⟩ := h
  induction d with
  | nil =>
    cases s with
    | nil => exact absurd rfl hne
    | cons c s => rfl
  | cons c d ih =>
    have hne' : d ≠ d ++ s := fun h => hne (by simp [← h])
    have h1 : compare (c :: d) (c :: (d ++ s)) = (compare c c).then (compare d (d ++ s)) :=
      List.compareLex_cons_cons
    rw [List.cons_append, h1, ih hne']
    have : compare c c = .eq := Std.ReflCmp.compare_self
    rw [this]; rfl

/-- `resolve` finds the longest prefix. -/
theorem resolve_eq_some_iff (r : Resolver T) (h : Sorted r.items) (path d : Path) (v : T) :
    resolve r path = some ⟨d, v⟩ ↔
      ⟨d, v⟩ ∈ r.items ∧ d <+: path ∧
        ∀ d' v', ⟨d', v'⟩ ∈ r.items → d' <+: path → d'.length ≤ d.length := by
  have hp : ∀ x : Item T, startsWith path x.path = true ↔ x.path <+: path := fun x =>
    List.isPrefixOf_iff_prefix
  unfold resolve
  rw [List.find?_eq_some_iff_append]
  constructor
  · rintro ⟨h1, as, bs, h2, h3⟩
    have h1 := (hp _).mp h1
    have hitems : r.items = bs.reverse ++ ⟨d, v⟩ :: as.reverse := by
      have := congrArg List.reverse h2
      simpa using this
    refine ⟨by simp [hitems], h1, ?_⟩
    intro d' v' hm hpre
    rw [hitems] at hm h
    simp only [List.mem_append, List.mem_cons, Item.mk.injEq, List.mem_reverse] at hm
    rcases hm with hm | hm | hm
    · unfold Sorted at h
      rw [List.pairwise_append] at h
      have hlt : compare d' d = .lt := h.2.2 ⟨d', v'⟩ (by simp [hm]) ⟨d, v⟩ (by simp)
      apply Classical.byContradiction
      intro hlen
      have hdd : d <+: d' := List.prefix_of_prefix_length_le h1 hpre (by omega)
      have := compare_prefix_lt d d' hdd (fun e => by subst e; omega)
      have := lt_trans hlt this
      rw [cmp_self] at this; cases this
    · rw [hm.1]; exact Nat.le_refl _
    · have := h3 _ hm
      rw [(hp _).mpr hpre] at this
      cases this
  · rintro ⟨h1, h2, h3⟩
    refine ⟨(hp _).mpr h2, ?_⟩
    obtain ⟨L, R, hs⟩ := List.append_of_mem h1
    refine ⟨R.reverse, L.reverse, by simp [hs], ?_⟩
    intro x hx
    rw [List.mem_reverse] at hx
    cases hx' : startsWith path x.path with
    | false => rfl
    | true =>
      have hpre := (hp _).mp hx'
      have hlen := h3 x.path x.value (by rw [hs]; simp [hx]) hpre
      have hxd : x.path <+: d := List.prefix_of_prefix_length_le hpre h2 hlen
      rw [hs] at h
      unfold Sorted at h
      rw [List.pairwise_append, List.pairwise_cons] at h
      have hlt : compare d x.path = .lt := h.2.1.1 x hx
      by_cases he : x.path = d
      · exact absurd he (lt_ne hlt).symm
      · have := lt_trans hlt (compare_prefix_lt _ _ hxd he)
        rw [cmp_self] at this; cases this

theorem resolve_eq_none_iff (r : Resolver T) (path : Path) :
    resolve r path = none ↔ ∀ d v, ⟨d, v⟩ ∈ r.items → ¬ d <+: path := by
  have hp : ∀ x : Item T, startsWith path x.path = true ↔ x.path <+: path := fun x =>
    List.isPrefixOf_iff_prefix
  unfold resolve
  rw [List.find?_eq_none]
  constructor
  · intro h d v hm hpre
    exact h _ (by simpa using hm) ((hp _).mpr hpre)
  · intro h x hx hs
    exact h x.path x.value (by simpa using hx) ((hp _).mp hs)

end Verif.Resolver
