import Verif.Model.KindGen
import Verif.Props.KindTables

/-!
# The generator of kinds (C87)
-/

namespace Verif.Ungrammar

/-- C87: for every language whose variants differ, the numbers up to that of `__LAST` are exactly the numbers of variants: the
assertion before the `transmute` is right. -/
theorem C87_numbered (src : KindsSrc) (h : (generateKinds src).variants.Nodup) (n : Nat) :
    n ≤ (generateKinds src).variants.idxOf "__LAST".toList ↔ ∃ v ∈ (generateKinds src).variants, (generateKinds src).variants.idxOf v = n := by
  generalize hv : (generateKinds src).variants = vs at h ⊢
  obtain ⟨us, rfl⟩ : ∃ us, vs = us ++ ["__LAST".toList] := ⟨_, hv.symm⟩
  have hl : (us ++ ["__LAST".toList]).idxOf "__LAST".toList = us.length := by
    have := h.idxOf_getElem us.length (by simp)
    simpa using this
  rw [hl]
  constructor
  · intro hn
    have hn' : n < (us ++ ["__LAST".toList]).length := by simp; omega
    exact ⟨_, List.getElem_mem hn', h.idxOf_getElem n hn'⟩
  · rintro ⟨v, hm, rfl⟩
    have := List.idxOf_lt_length_iff.mpr hm
    simp only [List.length_append, List.length_cons, List.length_nil] at this
    omega

theorem lookup_iff_mem {α β : Type} [BEq α] [LawfulBEq α] {l : List (α × β)} (h : (l.map Prod.fst).Nodup) {a : α} {b : β} :
    l.lookup a = some b ↔ (a, b) ∈ l := by
  induction l with
  | nil => simp
  | cons p l ih =>
    obtain ⟨x, y⟩ := p
    simp only [List.map_cons, List.nodup_cons] at h
    rw [List.lookup_cons]
    by_cases e : a = x
    · subst e
      simp only [beq_self_eq_true, Option.some.injEq, List.mem_cons, Prod.mk.injEq, true_and]
      constructor
      · intro h; exact .inl h.symm
      · rintro (h' | h')
        · exact h'.symm
        · exact absurd (List.mem_map_of_mem (f := Prod.fst) h') h.1
    · have : (a == x) = false := by simpa using e
      simp [this, e, ih h.2]

/-- C87: for every language whose variants differ and which has strings, `from_keyword` is the inverse of `to_string` on the
variants that are not punctuation. -/
theorem C87_keywords (src : KindsSrc) (h : (generateKinds src).variants.Nodup) (hs : "R_STRING_VALUE".toList ∈ src.nodes) (s k : Name) :
    (generateKinds src).fromKeyword.lookup s = some k ↔
      (generateKinds src).texts.lookup k = some s ∧ k ∉ (generateKinds src).isPunct ∧ k ≠ "R_STRING_VALUE".toList := by
  simp only [generateKinds] at h ⊢
  simp only [List.append_assoc, List.nodup_append, List.mem_append, List.mem_cons, List.mem_map, List.not_mem_nil, or_false] at h
  obtain ⟨_, ⟨hp, ⟨hk, ⟨_, ⟨_, ⟨_, _, _⟩, _⟩, _⟩, hkr⟩, hpr⟩, _⟩ := h
  have hkw : (src.keywords.map fun kw => (kw, keywordKind kw)).map Prod.fst = src.keywords := by simp [Function.comp_def]
  have hkn : src.keywords.Nodup := List.Pairwise.of_map keywordKind (fun a b hab e => hab (by rw [e])) hk
  have htn : ((src.punct.map (fun p => (p.2, p.1)) ++ (src.keywords.map (fun kw => (keywordKind kw, kw)) ++
      [("R_STRING_VALUE".toList, "string value".toList)])).map Prod.fst).Nodup := by
    simp only [List.map_append, List.map_map, Function.comp_def, List.map_cons, List.map_nil]
    rw [List.nodup_append, List.nodup_append]
    refine ⟨hp, ⟨hk, by simp, ?_⟩, ?_⟩
    · intro a ha b hb
      simp only [List.mem_singleton] at hb
      subst hb
      exact hkr a (by simpa using ha) _ (.inr (.inr (.inl hs)))
    · intro a ha b hb
      simp only [List.mem_append, List.mem_singleton] at hb
      rcases hb with hb | rfl
      · exact hpr a (by simpa using ha) b (.inl (by simpa using hb))
      · exact hpr a (by simpa using ha) _ (.inr (.inr (.inr (.inl hs))))
  rw [List.append_assoc, lookup_iff_mem htn, lookup_iff_mem (by rw [hkw]; exact hkn)]
  constructor
  · intro hm
    obtain ⟨kw, hkw, e⟩ := List.mem_map.mp hm
    cases e
    refine ⟨?_, ?_, ?_⟩
    · simp only [List.mem_append]
      exact .inr (.inl (List.mem_map.mpr ⟨s, hkw, rfl⟩))
    · intro hmem
      exact hpr _ (by simpa using hmem) _ (.inl ⟨s, hkw, rfl⟩) rfl
    · exact hkr _ ⟨s, hkw, rfl⟩ _ (.inr (.inr (.inl hs)))
  · rintro ⟨hm, hnp, hne⟩
    simp only [List.mem_append, List.mem_singleton, Prod.mk.injEq] at hm
    rcases hm with hm | hm | hm
    · obtain ⟨p, hp', e⟩ := List.mem_map.mp hm
      cases e
      exact absurd (List.mem_map_of_mem (f := Prod.snd) hp') hnp
    · obtain ⟨kw, hkw, e⟩ := List.mem_map.mp hm
      cases e
      exact List.mem_map.mpr ⟨s, hkw, rfl⟩
    · exact absurd hm.1 hne

/-- C87: the file for R is the generated one: the same variants in the same order, and the same arms of all functions. -/
theorem C87_air : (generateKinds rKindsSrc).variants = Syntax.kindOrder.map variantName ∧
    (∀ k : Syntax.Kind, k.isPunct = true ↔ variantName k ∈ (generateKinds rKindsSrc).isPunct) ∧
    (∀ k : Syntax.Kind, k.isLiteral = true ↔ variantName k ∈ (generateKinds rKindsSrc).isLiteral) ∧
    (∀ k : Syntax.Kind, k.isList = true ↔ variantName k ∈ (generateKinds rKindsSrc).isList) ∧
    (generateKinds rKindsSrc).fromKeyword = Syntax.keywordTable.map (fun p => (p.1.toList, variantName p.2)) ∧
    (generateKinds rKindsSrc).texts = Parser.kindTexts.map (fun p => (variantName p.1, p.2.toList)) := by
  have h1 : (allKinds.all fun k => decide ((k.isPunct = true ↔ variantName k ∈ (generateKinds rKindsSrc).isPunct) ∧
    (k.isLiteral = true ↔ variantName k ∈ (generateKinds rKindsSrc).isLiteral) ∧
    (k.isList = true ↔ variantName k ∈ (generateKinds rKindsSrc).isList))) = true := by decide +kernel
  have h := fun k => of_decide_eq_true (Syntax.every h1 k)
  exact ⟨by decide +kernel, fun k => (h k).1, fun k => (h k).2.1, fun k => (h k).2.2, by decide +kernel, by decide +kernel⟩

/-- The variants of R differ, as `C87_numbered` and `C87_keywords` require. -/
example : (generateKinds rKindsSrc).variants.Nodup ∧ "R_STRING_VALUE".toList ∈ rKindsSrc.nodes := by decide +kernel

/-- C87: for every language with identifiers, each arm of `T!` but that for `#` is for a variant. -/
theorem C87_macro_partial (src : KindsSrc) (hi : "IDENT".toList ∈ src.tokens) (t k : Name) (h : (t, k) ∈ (generateKinds src).macroArms) :
    k ∈ (generateKinds src).variants ∨ t = "#".toList := by
  simp only [generateKinds, List.mem_append, List.mem_map, List.mem_cons, List.not_mem_nil, or_false, Prod.mk.injEq] at h ⊢
  rcases h with (h | ⟨kw, hk, rfl, rfl⟩) | h | h | h | h
  · exact .inl (.inl (.inl (.inl (.inl (.inl (.inr ⟨_, h, rfl⟩))))))
  · exact .inl (.inl (.inl (.inl (.inl (.inr ⟨kw, hk, rfl⟩)))))
  · rw [h.2]; exact .inl (.inl (.inl (.inr hi)))
  · rw [h.2]; simp
  · rw [h.2]; simp
  · exact .inr h.1

/-- C87 (disagreement): in R, `T![#]` is for a variant that does not exist. -/
theorem C87_hash : ∃ k, ("#".toList, k) ∈ (generateKinds rKindsSrc).macroArms ∧ k ∉ (generateKinds rKindsSrc).variants :=
  ⟨"HASH".toList, by decide +kernel, by decide +kernel⟩

/-- C87: `map_syntax_node` takes a node for the type of its kind, and for tokens only it is `unreachable!`. -/
theorem C87_dispatch (k : Syntax.Kind) (n : Name) : dispatchArms.lookup k = some n ↔ elemOf k = .node n := by
  have h : (allKinds.all fun k => decide ((dispatchArms.lookup k).map Elem.node = match elemOf k with
      | .node n => some (.node n)
      | .token _ => none)) = true := by decide +kernel
  have hk := of_decide_eq_true (Syntax.every h k)
  cases he : elemOf k <;> cases hl : dispatchArms.lookup k <;> simp_all

/-- C87: the arms are those of the grammar: each type is generated for the kind of its name. -/
theorem C87_arms (k : Syntax.Kind) (n : Name) : dispatchArms.lookup k = some n ↔ (variantName k, n) ∈ generateArms rAst := by
  have h : (allKinds.all fun k => decide (((generateArms rAst).filter fun p => p.1 = variantName k).map Prod.snd =
      (dispatchArms.lookup k).toList)) = true := by decide +kernel
  have hk := of_decide_eq_true (Syntax.every h k)
  rw [← Option.mem_toList, ← hk]
  simp

end Verif.Ungrammar
