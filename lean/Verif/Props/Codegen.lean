import Verif.Spec.Codegen
import Verif.Props.Ungrammar

/-!
# C82: what the grammar describes fits into the generated tree
-/

namespace Verif.Ungrammar

/-! ## Slots -/

/-- The children can be distributed over the fields in order. -/
inductive Embeds : List (Elem → Bool) → List Elem → Prop
  | nil : Embeds [] []
  | skip {p : Elem → Bool} {ps : List (Elem → Bool)} {cs : List Elem} (h : Embeds ps cs) : Embeds (p :: ps) cs
  | take {p : Elem → Bool} {ps : List (Elem → Bool)} {c : Elem} {cs : List Elem} (hp : p c = true) (h : Embeds ps cs) :
    Embeds (p :: ps) (c :: cs)

theorem Embeds.empty : ∀ ps, Embeds ps []
  | [] => .nil
  | _ :: ps => .skip (Embeds.empty ps)

theorem Embeds.append {ps qs : List (Elem → Bool)} {cs ds : List Elem} (h : Embeds ps cs) (h' : Embeds qs ds) :
    Embeds (ps ++ qs) (cs ++ ds) := by
  induction h with
  | nil => exact h'
  | skip _ ih => exact .skip ih
  | take hp _ ih => exact .take hp ih

theorem Embeds.tail {ps : List (Elem → Bool)} {c : Elem} {cs : List Elem} (h : Embeds ps (c :: cs)) : Embeds ps cs := by
  generalize hx : c :: cs = xs at h
  induction h with
  | nil => cases hx
  | skip _ ih => exact .skip (ih hx)
  | take _ h _ => cases hx; exact .skip h

theorem fill_complete {ps : List (Elem → Bool)} : ∀ {cs : List Elem}, Embeds ps cs → ∃ slots, fill ps cs = some slots := by
  induction ps with
  | nil => intro cs h; cases h; exact ⟨[], rfl⟩
  | cons p ps ih =>
    intro cs h
    cases cs with
    | nil =>
      obtain ⟨s, hs⟩ := ih (Embeds.empty ps)
      exact ⟨_, by rw [fill, hs]; rfl⟩
    | cons c cs =>
      by_cases hp : p c = true
      · have : Embeds ps cs := by
          cases h with
          | skip h => exact h.tail
          | take _ h => exact h
        obtain ⟨s, hs⟩ := ih this
        exact ⟨_, by rw [fill, if_pos hp, hs]; rfl⟩
      · have : Embeds ps (c :: cs) := by
          cases h with
          | skip h => exact h
          | take hp' _ => exact absurd hp' hp
        obtain ⟨s, hs⟩ := ih this
        exact ⟨_, by rw [fill, if_neg hp, hs]; rfl⟩

theorem fill_sound {ps : List (Elem → Bool)} : ∀ {cs : List Elem} {slots : List (Option Elem)}, fill ps cs = some slots →
    slots.length = ps.length ∧ slots.filterMap id = cs ∧
    ∀ (i : Nat) (p : Elem → Bool) (c : Elem), ps[i]? = some p → slots[i]? = some (some c) → p c = true := by
  induction ps with
  | nil =>
    intro cs slots h
    cases cs with
    | nil => cases h; exact ⟨rfl, rfl, by simp⟩
    | cons c cs => cases h
  | cons p ps ih =>
    intro cs slots h
    have lift : ∀ {ds : List Elem} {s : List (Option Elem)} (o : Option Elem), fill ps ds = some s → (∀ c, o = some c → p c = true) →
        (o :: s).length = (p :: ps).length ∧ (o :: s).filterMap id = o.toList ++ ds ∧
        ∀ (i : Nat) (q : Elem → Bool) (c : Elem), (p :: ps)[i]? = some q → (o :: s)[i]? = some (some c) → q c = true := by
      intro ds s o hs ho
      obtain ⟨h1, h2, h3⟩ := ih hs
      refine ⟨by simp [h1], by cases o <;> simp [h2], fun i q c hi hc => ?_⟩
      cases i with
      | zero => simp at hi hc; subst hi; exact ho c hc
      | succ i => exact h3 i q c (by simpa using hi) (by simpa using hc)
    cases cs with
    | nil =>
      rw [fill, Option.map_eq_some_iff] at h
      obtain ⟨s, hs, rfl⟩ := h
      exact lift none hs (by simp)
    | cons c cs =>
      rw [fill] at h
      split at h
      · rename_i hp
        rw [Option.map_eq_some_iff] at h
        obtain ⟨s, hs, rfl⟩ := h
        exact lift (some c) hs (by rintro _ ⟨⟩; exact hp)
      · rw [Option.map_eq_some_iff] at h
        obtain ⟨s, hs, rfl⟩ := h
        exact lift none hs (by simp)

/-! ## Types -/

theorem variants_some {rs : List (Rule Name)} {vs : List Name} (h : variants rs = some vs) :
    (∀ a ∈ rs, (∃ m, a = .node m) ∨ a = .token [';']) ∧ ∀ m, m ∈ vs ↔ .node m ∈ rs := by
  induction rs generalizing vs with
  | nil => cases h; simp
  | cons r rs ih =>
    rw [variants.eq_def] at h
    split at h
    · rename_i hx; cases hx
    · rename_i n rs' hx
      cases hx
      rw [Option.map_eq_some_iff] at h
      obtain ⟨ws, hw, rfl⟩ := h
      obtain ⟨h1, h2⟩ := ih hw
      refine ⟨fun a ha => ?_, fun m => ?_⟩
      · rcases List.mem_cons.1 ha with rfl | ha
        · exact .inl ⟨n, rfl⟩
        · exact h1 a ha
      · simp [h2]
    · rename_i t rs' hx
      cases hx
      split at h
      · rename_i ht
        obtain ⟨h1, h2⟩ := ih h
        refine ⟨fun a ha => ?_, fun m => ?_⟩
        · rcases List.mem_cons.1 ha with rfl | ha
          · exact .inr (by rw [ht])
          · exact h1 a ha
        · simp [h2]
      · cases h
    · cases h

theorem variants_none {rs : List (Rule Name)} (h : variants rs = none) :
    ¬∀ a ∈ rs, (∃ m, a = .node m) ∨ a = .token [';'] := by
  induction rs with
  | nil => cases h
  | cons r rs ih =>
    intro hall
    have ih' : variants rs ≠ none := fun hn => ih hn fun a ha => hall a (by simp [ha])
    rcases hall r (by simp) with ⟨m, rfl⟩ | rfl
    · rw [variants, Option.map_eq_none_iff] at h
      exact ih' h
    · rw [variants, if_pos rfl] at h
      exact ih' h

theorem makeDef_union {r : Rule Name} {d : Def} (h : makeDef r = some d) :
    (r.IsUnion → ∃ vs rs, d = .union vs ∧ r = .alt rs ∧ ∀ m, m ∈ vs ↔ .node m ∈ rs.toList) ∧
    (¬r.IsUnion → ∀ vs, d ≠ .union vs) := by
  have hnode : ∀ {u r}, nodeDef u r = some d → ∀ vs, d ≠ .union vs := by
    intro u r h vs
    rw [nodeDef, Option.map_eq_some_iff] at h
    obtain ⟨_, _, rfl⟩ := h
    intro h
    cases h
  unfold makeDef at h
  split at h
  · rename_i rs
    split at h
    · rename_i vs hv
      cases h
      obtain ⟨h1, h2⟩ := variants_some hv
      exact ⟨fun _ => ⟨vs, rs, rfl, rfl, h2⟩, fun hn => absurd ⟨rs, rfl, h1⟩ hn⟩
    · rename_i hv
      exact ⟨fun ⟨rs', he, hall⟩ => by cases he; exact absurd hall (variants_none hv), fun _ => hnode h⟩
  · split at h <;> cases h <;> exact ⟨fun ⟨_, he, _⟩ => (by cases he), fun _ _ h => (by cases h)⟩
  · cases h
  · split at h
    · cases h; exact ⟨fun ⟨_, he, _⟩ => (by cases he), fun _ _ h => (by cases h)⟩
    · exact ⟨fun ⟨_, he, _⟩ => (by cases he), fun _ => hnode h⟩
    · cases h
  · exact ⟨fun ⟨_, he, _⟩ => (by cases he), fun _ => hnode h⟩
  · exact ⟨fun ⟨_, he, _⟩ => (by cases he), fun _ => hnode h⟩
  · rename_i h1 _ _ _ _ _
    exact ⟨fun ⟨rs, he, _⟩ => absurd he (h1 rs), fun _ => hnode h⟩

theorem makeAst_lookup {g : Gram} {ast : List (Name × Def)} (hm : makeAst g = some ast) :
    (∀ n r, (g.map Prod.fst).Nodup → (n, r) ∈ g → n ≠ syntaxElement → ∃ d, makeDef r = some d ∧ ast.lookup n = some d) ∧
    ∀ n d, ast.lookup n = some d → n ≠ syntaxElement ∧ ∃ r, (n, r) ∈ g ∧ makeDef r = some d := by
  induction g generalizing ast with
  | nil => cases hm; exact ⟨fun _ _ _ h => (by cases h), fun _ _ h => (by cases h)⟩
  | cons x g ih =>
    obtain ⟨m, q⟩ := x
    rw [makeAst] at hm
    split at hm
    · rename_i hs
      obtain ⟨h1, h2⟩ := ih hm
      refine ⟨fun n r hn h hne => ?_, fun n d h => ?_⟩
      · rcases List.mem_cons.1 h with h | h
        · cases h; exact absurd hs hne
        · exact h1 n r (List.nodup_cons.1 hn).2 h hne
      · obtain ⟨h3, r, h4, h5⟩ := h2 n d h
        exact ⟨h3, r, by simp [h4], h5⟩
    · rename_i hs
      split at hm
      · rename_i d0 ds hd hds
        cases hm
        obtain ⟨h1, h2⟩ := ih hds
        refine ⟨fun n r hn h hne => ?_, fun n d h => ?_⟩
        · rcases List.mem_cons.1 h with h' | h'
          · cases h'
            exact ⟨d0, hd, by rw [List.lookup_cons]; simp⟩
          · obtain ⟨d, h3, h4⟩ := h1 n r (List.nodup_cons.1 hn).2 h' hne
            refine ⟨d, h3, ?_⟩
            have : n ≠ m := by
              rintro rfl
              exact (List.nodup_cons.1 hn).1 (List.mem_map.2 ⟨(n, r), h', rfl⟩)
            rw [List.lookup_cons, show (n == m) = false by simpa using this]
            exact h4
        · rw [List.lookup_cons] at h
          split at h
          · rename_i e
            simp at e
            subst e
            cases h
            exact ⟨hs, q, by simp, hd⟩
          · obtain ⟨h3, r, h4, h5⟩ := h2 n d h
            exact ⟨h3, r, by simp [h4], h5⟩
      · cases hm

/-- C82: a node can be cast to a type if and only if the type is its own or a union it belongs to, by way of any number of
unions. -/
theorem C82_casts (g : Gram) (ast : List (Name × Def)) (depth : Nat) (hn : (g.map Prod.fst).Nodup) (hm : makeAst g = some ast)
    (hr : Ranked g depth) (n : Name) (k : Elem) : canCast ast depth n k = true ↔ Belongs g n k := by
  obtain ⟨rank, hd, hv⟩ := hr
  obtain ⟨look, known⟩ := makeAst_lookup hm
  have key : ∀ (d : Nat) (n : Name), rank n < d → (canCast ast d n k = true ↔ Belongs g n k) := by
    intro d
    induction d with
    | zero => intro n h; omega
    | succ d ih =>
      intro n h
      rw [canCast]
      constructor
      · intro hc
        split at hc
        · rename_i vs hl
          obtain ⟨hs, r, hr, hdef⟩ := known _ _ hl
          obtain ⟨h1, h2⟩ := makeDef_union hdef
          by_cases hu : r.IsUnion
          · obtain ⟨vs', rs, e, rfl, hmem⟩ := h1 hu
            cases e
            obtain ⟨v, hv1, hv2⟩ := List.any_eq_true.1 hc
            have hin := (hmem v).1 hv1
            have := hv n rs v hr hu hin
            exact .variant hr hs hu hin ((ih v (by omega)).1 hv2)
          · exact absurd rfl (h2 hu vs)
        · rename_i d' hne hl
          obtain ⟨hs, r, hr, hdef⟩ := known _ _ hl
          obtain ⟨h1, -⟩ := makeDef_union hdef
          have hu : ¬r.IsUnion := fun hu => by
            obtain ⟨vs, _, e, _⟩ := h1 hu
            exact hne vs e
          simp at hc
          subst hc
          exact .own hr hs hu
        · cases hc
      · intro hb
        cases hb with
        | own h1 hs hu =>
          obtain ⟨d', h2, h3⟩ := look _ _ hn h1 hs
          have := (makeDef_union h2).2 hu
          rw [h3]
          split
          · rename_i vs hx; cases hx; exact absurd rfl (this vs)
          · simp
          · rename_i hx; cases hx
        | @variant _ m rs _ h1 hs hu hin hk =>
          obtain ⟨d', h2, h3⟩ := look _ _ hn h1 hs
          obtain ⟨vs, rs', rfl, e, hmem⟩ := (makeDef_union h2).1 hu
          cases e
          rw [h3]
          have := hv n rs m h1 hu hin
          exact List.any_eq_true.2 ⟨m, (hmem m).2 hin, (ih m (by omega)).2 hk⟩
  exact key depth n (hd n)

/-! ## Fields -/

theorem allTokens_some {rs : List (Rule Name)} {ts : List Name} (h : allTokens rs = some ts) : rs = ts.map .token := by
  induction rs generalizing ts with
  | nil => cases h; rfl
  | cons r rs ih =>
    rw [allTokens.eq_def] at h
    split at h
    · rename_i hx; cases hx
    · rename_i hx
      cases hx
      rw [Option.map_eq_some_iff] at h
      obtain ⟨us, hu, rfl⟩ := h
      rw [ih hu]
      rfl
    · cases h

theorem tokenUnion_some {o o' : Bool} {r : Rule Name} {ts : List Name} (h : tokenUnion o r = some (ts, o')) :
    ∃ rs : Rules Name, rs.toList = ts.map .token ∧ ((r = .alt rs ∧ o' = o) ∨ (r = .opt (.alt rs) ∧ o' = true)) := by
  unfold tokenUnion at h
  split at h
  · rename_i rs
    rw [Option.map_eq_some_iff] at h
    obtain ⟨us, hu, e⟩ := h
    cases e
    exact ⟨rs, allTokens_some hu, .inr ⟨rfl, rfl⟩⟩
  · rename_i rs
    rw [Option.map_eq_some_iff] at h
    obtain ⟨us, hu, e⟩ := h
    cases e
    exact ⟨rs, allTokens_some hu, .inl ⟨rfl, rfl⟩⟩
  · cases h

theorem langAlt_mem {g : Gram} : ∀ {rs : Rules Name} {cs : List Elem}, LangAlt g rs cs → ∃ r ∈ rs.toList, Lang g r cs
  | .nil, _, h => by cases h
  | .cons r rs, cs, h => by
    cases h with
    | here h => exact ⟨r, by simp [Rules.toList], h⟩
    | there h =>
      obtain ⟨q, h1, h2⟩ := langAlt_mem h
      exact ⟨q, by simp [Rules.toList, h1], h2⟩

theorem lang_tokens {g : Gram} {rs : Rules Name} {ts : List Name} {cs : List Elem} (e : rs.toList = ts.map .token)
    (h : LangAlt g rs cs) : ∃ t ∈ ts, (t ≠ [] ∧ cs = [.token t]) ∨ (t = [] ∧ cs = []) := by
  obtain ⟨r, h1, h2⟩ := langAlt_mem h
  rw [e] at h1
  obtain ⟨t, ht, rfl⟩ := List.mem_map.1 h1
  refine ⟨t, ht, ?_⟩
  cases h2 with
  | token hne => exact .inl ⟨hne, rfl⟩
  | hole => exact .inr ⟨rfl, rfl⟩

theorem test_token {ast : List (Name × Def)} {depth : Nat} {l t : Name} {ts : List Name} {o u : Bool} (h : t ∈ ts) :
    (Field.token l ts o u).test ast depth (.token t) = true := by
  simp [Field.test, h]

mutual
/-- Whatever a rule describes can be distributed over its fields. -/
theorem rule_embeds {g : Gram} {ast : List (Name × Def)} {depth : Nat} (hc : ∀ n k, Belongs g n k → canCast ast depth n k = true) :
    ∀ (r : Rule Name) (l : Option Name) (o u : Bool) (fs : List Field) (cs : List Elem), handleRule l o u r = some fs →
      Lang g r cs → Embeds (fs.map (Field.test ast depth)) cs
  | .labeled l' r, l, o, u, fs, cs, h, hl => by
    cases hl with
    | labeled hl =>
      rw [handleRule] at h
      split at h
      · rename_i ts o' ht
        cases h
        obtain ⟨rs, e, hr⟩ := tokenUnion_some ht
        have alt : ∀ {cs}, LangAlt g rs cs → Embeds ([Field.token l' ts o' u].map (Field.test ast depth)) cs := by
          intro cs ha
          obtain ⟨t, h1, ⟨_, rfl⟩ | ⟨_, rfl⟩⟩ := lang_tokens e ha
          · exact .take (test_token h1) .nil
          · exact Embeds.empty _
        rcases hr with ⟨rfl, _⟩ | ⟨rfl, _⟩
        · cases hl with
          | alt ha => exact alt ha
        · cases hl with
          | absent => exact Embeds.empty _
          | present hl =>
            cases hl with
            | alt ha => exact alt ha
      · exact rule_embeds hc r _ _ _ fs cs h hl
  | .node n, l, o, u, fs, cs, h, hl => by
    cases hl with
    | node hb =>
      rw [handleRule] at h
      cases h
      exact .take (hc _ _ hb) .nil
  | .token t, l, o, u, fs, cs, h, hl => by
    rw [handleRule] at h
    cases hl with
    | token ht =>
      rw [if_neg ht] at h
      cases h
      exact .take (test_token (by simp)) .nil
    | hole => exact Embeds.empty _
  | .rep _, l, o, u, fs, cs, h, hl => by rw [handleRule] at h; cases h
  | .opt r, l, o, u, fs, cs, h, hl => by
    rw [handleRule] at h
    cases hl with
    | absent => exact Embeds.empty _
    | present hl => exact rule_embeds hc r _ _ _ fs cs h hl
  | .alt rs, l, o, u, fs, cs, h, hl => by
    rw [handleRule] at h
    split at h
    · cases h
    cases hl with
    | alt hl => exact alt_embeds hc rs _ _ _ fs cs h hl
  | .seq rs, l, o, u, fs, cs, h, hl => by
    rw [handleRule] at h
    cases hl with
    | seq hl => exact seq_embeds hc rs _ _ _ fs cs h hl
  | .unorderedAll rs, l, o, u, fs, cs, h, hl => by cases hl
  | .unorderedSome rs, l, o, u, fs, cs, h, hl => by cases hl
theorem seq_embeds {g : Gram} {ast : List (Name × Def)} {depth : Nat} (hc : ∀ n k, Belongs g n k → canCast ast depth n k = true) :
    ∀ (rs : Rules Name) (l : Option Name) (o u : Bool) (fs : List Field) (cs : List Elem), handleRules l o u rs = some fs →
      LangSeq g rs cs → Embeds (fs.map (Field.test ast depth)) cs
  | .nil, l, o, u, fs, cs, h, hl => by
    rw [handleRules] at h
    cases h
    cases hl
    exact .nil
  | .cons r rs, l, o, u, fs, cs, h, hl => by
    rw [handleRules] at h
    split at h
    · rename_i fs1 fs2 h1 h2
      cases h
      cases hl with
      | cons hl hl' =>
        rw [List.map_append]
        exact (rule_embeds hc r _ _ _ _ _ h1 hl).append (seq_embeds hc rs _ _ _ _ _ h2 hl')
    · cases h
theorem alt_embeds {g : Gram} {ast : List (Name × Def)} {depth : Nat} (hc : ∀ n k, Belongs g n k → canCast ast depth n k = true) :
    ∀ (rs : Rules Name) (l : Option Name) (o u : Bool) (fs : List Field) (cs : List Elem), handleRules l o u rs = some fs →
      LangAlt g rs cs → Embeds (fs.map (Field.test ast depth)) cs
  | .nil, l, o, u, fs, cs, h, hl => by cases hl
  | .cons r rs, l, o, u, fs, cs, h, hl => by
    rw [handleRules] at h
    split at h
    · rename_i fs1 fs2 h1 h2
      cases h
      rw [List.map_append]
      cases hl with
      | here hl =>
        have := (rule_embeds hc r _ _ _ _ _ h1 hl).append (Embeds.empty (fs2.map (Field.test ast depth)))
        rwa [List.append_nil] at this
      | there hl => exact (Embeds.empty (fs1.map (Field.test ast depth))).append (alt_embeds hc rs _ _ _ _ _ h2 hl)
    · cases h
end

/-! ## Lists -/

theorem same_token {r : Rule Name} {t : Name} (h : r.same (.token t) = true) : r = .token t := by
  cases r <;> simp [Rule.same] at h
  rw [h]

theorem rep_induct {g : Gram} {q : Rule Name} {P : List Elem → Prop} (h0 : P [])
    (h1 : ∀ cs ds, Lang g q cs → P ds → P (cs ++ ds)) {cs : List Elem} (h : Lang g (.rep q) cs) : P cs := by
  have : ∀ {r cs}, Lang g r cs → r = .rep q → P cs := by
    intro r cs h
    refine Lang.rec (motive_1 := fun r cs _ => r = .rep q → P cs) (motive_2 := fun _ _ _ => True)
      (motive_3 := fun _ _ _ => True) ?_ ?_ ?_ ?_ ?_ ?_ ?_ ?_ ?_ ?_ ?_ ?_ ?_ ?_ h
    case refine_9 => exact fun _ => h0
    case refine_10 =>
      intro r cs ds h h' _ ih e
      cases e
      exact h1 cs ds h (ih rfl)
    all_goals first | (intros; exact True.intro) | (intros; rename_i e; cases e; done) | (intro e; cases e; done)
  exact this h rfl

theorem separated_slots {fits : Elem → Bool} {s : Name} {tr : Bool} : ∀ (cs : List Elem) (due first : Bool) (slots : List (Option Elem)),
    separated fits s tr due first cs = some slots → slots.filterMap id = cs := by
  intro cs
  induction cs with
  | nil =>
    intro due first slots h
    rw [separated.eq_def] at h
    simp only [Option.some.injEq] at h
    rw [← h]
    split <;> rfl
  | cons c cs ih =>
    intro due first slots h
    cases due <;> rw [separated] at h
    all_goals
      split at h
      · rw [Option.map_eq_some_iff] at h
        obtain ⟨r, hr, rfl⟩ := h
        simp [ih _ _ _ hr]
      · split at h
        · rw [Option.map_eq_some_iff] at h
          obtain ⟨r, hr, rfl⟩ := h
          simp [ih _ _ _ hr]
        · cases h

theorem belongs_node {g : Gram} {n : Name} {k : Elem} (h : Belongs g n k) : ∃ m, k = .node m := by
  induction h with
  | own => exact ⟨_, rfl⟩
  | variant _ _ _ _ _ ih => exact ih

theorem separated_items {g : Gram} {fits : Elem → Bool} {e s : Name} {tr : Bool} (hf : ∀ k, Belongs g e k → fits k = true)
    {ds : List Elem} (h : Lang g (.rep (.seq (.cons (.token s) (.cons (.node e) .nil)))) ds) (rest : List Elem)
    (hr : (separated fits s tr false false rest).isSome) : (separated fits s tr false false (ds ++ rest)).isSome := by
  refine rep_induct (P := fun ds => (separated fits s tr false false (ds ++ rest)).isSome) hr ?_ h
  intro cs ds hl ih
  rw [List.append_assoc]
  generalize hx : ds ++ rest = xs at ih ⊢
  cases hl with
  | seq hl =>
    cases hl with
    | cons h1 h2 =>
      cases h2 with
      | cons h2 h3 =>
        cases h3
        cases h2 with
        | @node _ k hb =>
          have hk := hf k hb
          cases h1 with
          | token ht =>
            show (separated fits s tr false false (.token s :: k :: xs)).isSome
            rw [separated, if_pos rfl, separated, if_pos hk]
            simpa using ih
          | hole =>
            show (separated fits [] tr false false (k :: xs)).isSome
            rw [separated]
            split
            · rename_i hk'
              obtain ⟨m, rfl⟩ := belongs_node hb
              cases hk'
            · simp [hk, ih]

theorem separated_accepts {g : Gram} {fits : Elem → Bool} {e s : Name} {tr : Bool} (hf : ∀ k, Belongs g e k → fits k = true)
    {cs ds xs : List Elem} (h1 : Lang g (.node e) cs)
    (h2 : Lang g (.rep (.seq (.cons (.token s) (.cons (.node e) .nil)))) ds)
    (h3 : xs = [] ∨ xs = [.token s]) :
    ∃ slots, separated fits s tr true true (cs ++ (ds ++ xs)) = some slots ∧ slots.filterMap id = cs ++ (ds ++ xs) := by
  have hx : (separated fits s tr false false xs).isSome := by
    rcases h3 with rfl | rfl
    · rw [separated]; rfl
    · rw [separated, if_pos rfl, separated]; rfl
  have h := separated_items hf h2 xs hx
  cases h1 with
  | @node _ k hb =>
    obtain ⟨r, hr⟩ := Option.isSome_iff_exists.1 h
    refine ⟨some k :: r, ?_, ?_⟩
    · show separated fits s tr true true (k :: (ds ++ xs)) = _
      rw [separated, if_pos (hf k hb), hr]
      rfl
    · have := separated_slots _ _ _ _ hr
      simp [this]

theorem toList_nil {rs : Rules Name} (h : rs.toList = []) : rs = .nil := by
  cases rs with
  | nil => rfl
  | cons r rs => cases h

theorem toList_cons {rs : Rules Name} {r : Rule Name} {l : List (Rule Name)} (h : rs.toList = r :: l) :
    ∃ rs', rs = .cons r rs' ∧ rs'.toList = l := by
  cases rs with
  | nil => cases h
  | cons r rs => cases h; exact ⟨rs, rfl, rfl⟩

theorem commaRest_some {n m e s : Name} {comma : Rule Name} {a b tr : Bool}
    (h : commaRest n comma m a b = some (some (e, s, tr))) : m = n ∧ a = true ∧ comma = .token s ∧ e = n ∧ tr = b := by
  unfold commaRest at h
  split at h
  · cases h
  · rename_i hc
    split at h
    · cases h
      refine ⟨Classical.byContradiction fun hne => hc (.inl hne), ?_, rfl, rfl, rfl⟩
      cases a
      · exact absurd (.inr rfl) hc
      · rfl
    · cases h

/-- The two forms of lists with separators. -/
theorem commaList_some {rs : Rules Name} {e s : Name} {tr : Bool} (h : commaList rs.toList = some (some (e, s, tr))) :
    rs = .cons (.node e) (.cons (.rep (.seq (.cons (.token s) (.cons (.node e) .nil)))) .nil) ∨
    rs = .cons (.node e) (.cons (.rep (.seq (.cons (.token s) (.cons (.node e) .nil)))) (.cons (.opt (.token s)) .nil)) := by
  unfold commaList at h
  split at h
  · rename_i n comma m t hl
    obtain ⟨rfl, ht, rfl, rfl, -⟩ := commaRest_some h
    obtain ⟨rs1, rfl, h1⟩ := toList_cons hl
    obtain ⟨rs2, rfl, h2⟩ := toList_cons h1
    obtain ⟨rs3, rfl, h3⟩ := toList_cons h2
    rw [toList_nil h3, same_token ht]
    exact .inr rfl
  · rename_i n comma m hl
    obtain ⟨rfl, -, rfl, rfl, -⟩ := commaRest_some h
    obtain ⟨rs1, rfl, h1⟩ := toList_cons hl
    obtain ⟨rs2, rfl, h2⟩ := toList_cons h1
    rw [toList_nil h2]
    exact .inl rfl
  · cases h

/-- C82: children that the rule of a node describes are accepted by the factory that is generated for the grammar: the node
does not become bogus, and no child is lost or moved. For all grammars; without parts in any order (`Lang` has none). -/
theorem C82_accepts (g : Gram) (ast : List (Name × Def)) (depth : Nat) (hn : (g.map Prod.fst).Nodup) (hm : makeAst g = some ast)
    (hr : Ranked g depth) (n : Name) (r : Rule Name) (h : (n, r) ∈ g) (hs : n ≠ syntaxElement) (hu : ¬r.IsUnion)
    (ho : ∀ fs, makeDef r ≠ some (.node fs true)) (cs : List Elem) (hl : Lang g r cs) :
    ∃ slots, makeSyntax ast depth n cs = some slots ∧ slots.filterMap id = cs := by
  obtain ⟨d, hd, hlook⟩ := (makeAst_lookup hm).1 n r hn h hs
  have hc : ∀ n k, Belongs g n k → canCast ast depth n k = true := fun n k => (C82_casts g ast depth hn hm hr n k).2
  have node : ∀ {u}, nodeDef u r = some d → ∃ slots, makeSyntax ast depth n cs = some slots ∧ slots.filterMap id = cs := by
    intro u hnd
    have hnd' := hnd
    rw [nodeDef, Option.map_eq_some_iff] at hnd
    obtain ⟨fs, hf, rfl⟩ := hnd
    have hdyn : (u || fs.any Field.unordered) = false := by
      rw [← Bool.not_eq_true]
      intro e
      rw [e] at hd
      exact ho fs hd
    obtain ⟨slots, h1⟩ := fill_complete (rule_embeds hc r _ _ _ fs cs hf hl)
    refine ⟨slots, ?_, (fill_sound h1).2.1⟩
    rw [makeSyntax, hlook, hdyn]
    exact h1
  have hd' := hd
  unfold makeDef at hd
  split at hd
  · split at hd
    · cases hd
      exact absurd rfl ((makeDef_union hd').2 hu _)
    · exact node hd
  · rename_i e
    split at hd
    · cases hd
      exact ⟨cs.map some, by rw [makeSyntax, hlook], by simp⟩
    · cases hd
      have : cs.all (canCast ast depth e) = true := by
        refine rep_induct (P := fun cs => cs.all (canCast ast depth e) = true) rfl ?_ hl
        intro cs ds h1 h2
        cases h1 with
        | node hb => simpa [hc _ _ hb] using h2
      refine ⟨cs.map some, ?_, by simp⟩
      rw [makeSyntax, hlook]
      exact if_pos this
  · cases hd
  · rename_i rs
    split at hd
    · rename_i e s tr hcl
      cases hd
      have hms : makeSyntax ast depth n cs = separated (canCast ast depth e) s tr true true cs := by
        rw [makeSyntax, hlook]
      rw [hms]
      rcases commaList_some hcl with rfl | rfl
      · cases hl with
        | seq hl =>
          cases hl with
          | cons h1 hl =>
            cases hl with
            | @cons _ _ ds xs h2 hl =>
              cases hl
              exact separated_accepts (fun k => hc e k) h1 h2 (.inl rfl)
      · cases hl with
        | seq hl =>
          cases hl with
          | cons h1 hl =>
            cases hl with
            | cons h2 hl =>
              cases hl with
              | cons h3 hl =>
                cases hl
                rw [List.append_nil]
                refine separated_accepts (fun k => hc e k) h1 h2 ?_
                cases h3 with
                | absent => exact .inl rfl
                | present h3 =>
                  cases h3 with
                  | token _ => exact .inr rfl
                  | hole => exact .inl rfl
    · exact node hd
    · cases hd
  · exact node hd
  · exact node hd
  · exact node hd

/-! ## Required fields -/

/-- The children go to these slots; only optional fields are left out. -/
inductive Assigned (test : Field → Elem → Bool) : List Field → List Elem → List (Option Elem) → Prop
  | nil : Assigned test [] [] []
  | skip {f : Field} {fs : List Field} {cs : List Elem} {ss : List (Option Elem)} (ho : f.optional = true)
    (h : Assigned test fs cs ss) : Assigned test (f :: fs) cs (none :: ss)
  | take {f : Field} {fs : List Field} {c : Elem} {cs : List Elem} {ss : List (Option Elem)} (ht : test f c = true)
    (h : Assigned test fs cs ss) : Assigned test (f :: fs) (c :: cs) (some c :: ss)

theorem Assigned.append {test : Field → Elem → Bool} {fs gs : List Field} {cs ds : List Elem} {ss ts : List (Option Elem)}
    (h : Assigned test fs cs ss) (h' : Assigned test gs ds ts) : Assigned test (fs ++ gs) (cs ++ ds) (ss ++ ts) := by
  induction h with
  | nil => exact h'
  | skip ho _ ih => exact .skip ho ih
  | take ht _ ih => exact .take ht ih

theorem Assigned.absent {test : Field → Elem → Bool} : ∀ {fs : List Field}, (∀ f ∈ fs, f.optional = true) →
    ∃ ss, Assigned test fs [] ss
  | [], _ => ⟨[], .nil⟩
  | f :: fs, h => by
    obtain ⟨ss, hs⟩ := Assigned.absent (test := test) (fs := fs) fun f hf => h f (by simp [hf])
    exact ⟨none :: ss, .skip (h f (by simp)) hs⟩

theorem Assigned.next {test : Field → Elem → Bool} {fs : List Field} {c : Elem} {cs : List Elem} {ss : List (Option Elem)}
    (h : Assigned test fs (c :: cs) ss) : ∃ q ∈ reach fs, test q c = true := by
  generalize hx : c :: cs = xs at h
  induction h with
  | nil => cases hx
  | skip ho _ ih =>
    obtain ⟨q, h1, h2⟩ := ih hx
    exact ⟨q, by rw [reach, if_pos ho]; simp [h1], h2⟩
  | @take f _ _ _ _ ht _ _ =>
    cases hx
    exact ⟨f, by rw [reach]; simp, ht⟩

theorem Assigned.filled {test : Field → Elem → Bool} {fs : List Field} {cs : List Elem} {ss : List (Option Elem)}
    (h : Assigned test fs cs ss) (hc : Clear test fs) : fill (fs.map test) cs = some ss := by
  induction h with
  | nil => rfl
  | @skip f fs cs ss ho h ih =>
    have ih := ih hc.2
    cases cs with
    | nil => rw [List.map_cons, fill, ih]; rfl
    | cons c cs =>
      obtain ⟨q, h1, h2⟩ := h.next
      have : ¬test f c = true := fun h3 => hc.1 ho q h1 c ⟨h3, h2⟩
      rw [List.map_cons, fill, if_neg this, ih]
      rfl
  | take ht _ ih =>
    rw [List.map_cons, fill, if_pos ht, ih hc.2]
    rfl

theorem Assigned.required {test : Field → Elem → Bool} {fs : List Field} {cs : List Elem} {ss : List (Option Elem)}
    (h : Assigned test fs cs ss) (i : Nat) (f : Field) (hi : fs[i]? = some f) (ho : f.optional = false) :
    ∃ c, ss[i]? = some (some c) ∧ test f c = true := by
  induction h generalizing i with
  | nil => simp at hi
  | skip ho' _ ih =>
    cases i with
    | zero => simp at hi; subst hi; rw [ho] at ho'; cases ho'
    | succ i => exact ih i (by simpa using hi)
  | take ht _ ih =>
    cases i with
    | zero => simp at hi; subst hi; exact ⟨_, rfl, ht⟩
    | succ i => exact ih i (by simpa using hi)

mutual
theorem rule_optional : ∀ (r : Rule Name) (l : Option Name) (u : Bool) (fs : List Field), handleRule l true u r = some fs →
    ∀ f ∈ fs, f.optional = true
  | .labeled l' r, l, u, fs, h => by
    rw [handleRule] at h
    split at h
    · rename_i ts o' ht
      cases h
      obtain ⟨rs, -, ⟨-, rfl⟩ | ⟨-, rfl⟩⟩ := tokenUnion_some ht <;> simp [Field.optional]
    · exact rule_optional r _ _ fs h
  | .node n, l, u, fs, h => by rw [handleRule] at h; cases h; simp [Field.optional]
  | .token t, l, u, fs, h => by
    rw [handleRule] at h
    split at h <;> cases h <;> simp [Field.optional]
  | .rep _, l, u, fs, h => by rw [handleRule] at h; cases h
  | .opt r, l, u, fs, h => by rw [handleRule] at h; exact rule_optional r _ _ fs h
  | .alt rs, l, u, fs, h => by rw [handleRule, if_pos rfl] at h; cases h
  | .seq rs, l, u, fs, h => by rw [handleRule] at h; exact rules_optional rs _ _ fs h
  | .unorderedAll rs, l, u, fs, h => by rw [handleRule] at h; exact rules_optional rs _ _ fs h
  | .unorderedSome rs, l, u, fs, h => by rw [handleRule] at h; exact rules_optional rs _ _ fs h
theorem rules_optional : ∀ (rs : Rules Name) (l : Option Name) (u : Bool) (fs : List Field), handleRules l true u rs = some fs →
    ∀ f ∈ fs, f.optional = true
  | .nil, l, u, fs, h => by rw [handleRules] at h; cases h; simp
  | .cons r rs, l, u, fs, h => by
    rw [handleRules] at h
    split at h
    · rename_i fs1 fs2 h1 h2
      cases h
      intro f hf
      rcases List.mem_append.1 hf with hf | hf
      · exact rule_optional r _ _ fs1 h1 f hf
      · exact rules_optional rs _ _ fs2 h2 f hf
    · cases h
end

theorem tokens_assigned {g : Gram} {ast : List (Name × Def)} {depth : Nat} {rs : Rules Name} {ts : List Name} {l : Name} {o u : Bool}
    {cs : List Elem} (e : rs.toList = ts.map .token) (hp : ∀ a ∈ rs.toList, ∃ t, a = .token t ∧ t ≠ []) (h : LangAlt g rs cs) :
    ∃ ss, Assigned (Field.test ast depth) [.token l ts o u] cs ss := by
  obtain ⟨t, h1, ⟨_, rfl⟩ | ⟨rfl, rfl⟩⟩ := lang_tokens e h
  · exact ⟨_, .take (test_token h1) .nil⟩
  · obtain ⟨t, h2, h3⟩ := hp (.token []) (by rw [e]; exact List.mem_map.2 ⟨_, h1, rfl⟩)
    cases h2
    exact absurd rfl h3

theorem tokenUnion_alt (o : Bool) {rs : Rules Name} (hp : ∀ a ∈ rs.toList, ∃ t : Name, a = .token t ∧ t ≠ []) :
    ∃ ts, allTokens rs.toList = some ts := by
  generalize rs.toList = l at hp
  induction l with
  | nil => exact ⟨[], rfl⟩
  | cons r l ih =>
    obtain ⟨ts, h⟩ := ih fun a ha => hp a (by simp [ha])
    obtain ⟨t, rfl, -⟩ := hp r (by simp)
    exact ⟨t :: ts, by rw [allTokens, h]; rfl⟩

mutual
theorem rule_assigned {g : Gram} {ast : List (Name × Def)} {depth : Nat}
    (hc : ∀ n k, Belongs g n k → canCast ast depth n k = true) :
    ∀ (r : Rule Name) (l : Option Name) (o u : Bool) (fs : List Field) (cs : List Elem), r.Plain → handleRule l o u r = some fs →
      Lang g r cs → ∃ ss, Assigned (Field.test ast depth) fs cs ss
  | .labeled l' r, l, o, u, fs, cs, hp, h, hl => by
    cases hl with
    | labeled hl =>
      rw [handleRule] at h
      split at h
      · rename_i ts o' ht
        cases h
        obtain ⟨rs, e, ⟨rfl, rfl⟩ | ⟨rfl, rfl⟩⟩ := tokenUnion_some ht
        · rw [Rule.Plain] at hp
          cases hl with
          | alt ha => exact tokens_assigned e hp ha
        · rw [Rule.Plain] at hp
          cases hl with
          | absent => exact Assigned.absent (by simp [Field.optional])
          | present hl =>
            cases hl with
            | alt ha => exact tokens_assigned e hp ha
      · rename_i hn
        refine rule_assigned hc r _ _ _ fs cs ?_ h hl
        rw [Rule.Plain.eq_def] at hp
        simp only at hp
        split at hp
        · rename_i hx
          cases hx
          obtain ⟨ts, ht⟩ := tokenUnion_alt o hp
          rw [tokenUnion, ht] at hn
          cases hn
        · rename_i hx
          cases hx
          obtain ⟨ts, ht⟩ := tokenUnion_alt o hp
          rw [tokenUnion, ht] at hn
          cases hn
        · rename_i hx; cases hx; exact hp
        all_goals first | (rename_i hx; cases hx; done) | exact hp.elim
  | .node n, l, o, u, fs, cs, _, h, hl => by
    cases hl with
    | node hb =>
      rw [handleRule] at h
      cases h
      exact ⟨_, .take (hc _ _ hb) .nil⟩
  | .token t, l, o, u, fs, cs, _, h, hl => by
    rw [handleRule] at h
    cases hl with
    | token ht =>
      rw [if_neg ht] at h
      cases h
      exact ⟨_, .take (test_token (by simp)) .nil⟩
    | hole =>
      rw [if_pos rfl] at h
      cases h
      exact ⟨_, .nil⟩
  | .rep _, l, o, u, fs, cs, _, h, hl => by rw [handleRule] at h; cases h
  | .opt r, l, o, u, fs, cs, hp, h, hl => by
    rw [handleRule] at h
    cases hl with
    | absent => exact Assigned.absent (rule_optional r _ _ fs h)
    | present hl => exact rule_assigned hc r _ _ _ fs cs (by rwa [Rule.Plain] at hp) h hl
  | .alt rs, l, o, u, fs, cs, hp, h, hl => by simp [Rule.Plain] at hp
  | .seq rs, l, o, u, fs, cs, hp, h, hl => by
    rw [handleRule] at h
    rw [Rule.Plain] at hp
    cases hl with
    | seq hl => exact rules_assigned hc rs _ _ _ fs cs hp h hl
  | .unorderedAll rs, l, o, u, fs, cs, _, h, hl => by cases hl
  | .unorderedSome rs, l, o, u, fs, cs, _, h, hl => by cases hl
theorem rules_assigned {g : Gram} {ast : List (Name × Def)} {depth : Nat}
    (hc : ∀ n k, Belongs g n k → canCast ast depth n k = true) :
    ∀ (rs : Rules Name) (l : Option Name) (o u : Bool) (fs : List Field) (cs : List Elem), rs.Plain →
      handleRules l o u rs = some fs → LangSeq g rs cs → ∃ ss, Assigned (Field.test ast depth) fs cs ss
  | .nil, l, o, u, fs, cs, _, h, hl => by
    rw [handleRules] at h
    cases h
    cases hl
    exact ⟨_, .nil⟩
  | .cons r rs, l, o, u, fs, cs, hp, h, hl => by
    rw [handleRules] at h
    rw [Rules.Plain] at hp
    split at h
    · rename_i fs1 fs2 h1 h2
      cases h
      cases hl with
      | cons hl hl' =>
        obtain ⟨ss, h3⟩ := rule_assigned hc r _ _ _ _ _ hp.1 h1 hl
        obtain ⟨ts, h4⟩ := rules_assigned hc rs _ _ _ _ _ hp.2 h2 hl'
        exact ⟨_, h3.append h4⟩
    · cases h
end

/-- C82, partial: no field that the rule requires is missing in the slots, if nothing fits an optional field and another that
could be next, and the rule has alternatives between tokens only. -/
theorem C82_required_partial (g : Gram) (ast : List (Name × Def)) (depth : Nat) (hn : (g.map Prod.fst).Nodup)
    (hm : makeAst g = some ast) (hr : Ranked g depth) (n : Name) (r : Rule Name) (h : (n, r) ∈ g) (hs : n ≠ syntaxElement)
    (fs : List Field) (hf : makeDef r = some (.node fs false)) (hp : r.Plain) (hclear : Clear (Field.test ast depth) fs)
    (cs : List Elem) (hl : Lang g r cs) :
    ∃ slots, makeSyntax ast depth n cs = some slots ∧ ∀ (i : Nat) (f : Field), fs[i]? = some f → f.optional = false →
      ∃ c, slots[i]? = some (some c) ∧ f.test ast depth c = true := by
  obtain ⟨d, hd, hlook⟩ := (makeAst_lookup hm).1 n r hn h hs
  rw [hf] at hd
  cases hd
  have hc : ∀ n k, Belongs g n k → canCast ast depth n k = true := fun n k => (C82_casts g ast depth hn hm hr n k).2
  have node : ∀ {u}, nodeDef u r = some (.node fs false) → handleRule none false u r = some fs := by
    intro u hnd
    rw [nodeDef, Option.map_eq_some_iff] at hnd
    obtain ⟨fs', h1, h2⟩ := hnd
    injection h2 with h3
    rw [← h3]
    exact h1
  obtain ⟨u, hh⟩ : ∃ u, handleRule none false u r = some fs := by
    unfold makeDef at hf
    split at hf
    · split at hf
      · cases hf
      · exact ⟨_, node hf⟩
    · split at hf <;> cases hf
    · cases hf
    · split at hf
      · cases hf
      · exact ⟨_, node hf⟩
      · cases hf
    · exact ⟨_, node hf⟩
    · exact ⟨_, node hf⟩
    · exact ⟨_, node hf⟩
  obtain ⟨ss, ha⟩ := rule_assigned hc r _ _ _ fs cs hp hh hl
  refine ⟨ss, ?_, ha.required⟩
  rw [makeSyntax, hlook]
  exact ha.filled hclear

/-! ## Examples -/

/-- Part of r.ungram: `if` with its two kinds of parts, a union in a union, a list. -/
def exampleGram : Gram :=
  [("RIfStatement".toList, .seq (.cons (.token "if".toList) (.cons (.labeled "condition".toList (.node "AnyRExpression".toList))
      (.cons (.labeled "else_clause".toList (.opt (.node "RElseClause".toList))) .nil)))),
   ("RElseClause".toList, .seq (.cons (.token "else".toList) (.cons (.node "AnyRExpression".toList) .nil))),
   ("AnyRExpression".toList, .alt (.cons (.node "RIfStatement".toList) (.cons (.node "AnyRValue".toList) .nil))),
   ("AnyRValue".toList, .alt (.cons (.node "RDoubleValue".toList) (.cons (.node "RUnaryExpression".toList) .nil))),
   ("RDoubleValue".toList, .labeled "value".toList (.token "r_double".toList)),
   ("RUnaryExpression".toList, .seq (.cons (.labeled "operator".toList (.alt (.cons (.token "+".toList)
      (.cons (.token "-".toList) .nil)))) (.cons (.labeled "argument".toList (.node "AnyRExpression".toList)) .nil))),
   ("RArgumentList".toList, .seq (.cons (.node "RDoubleValue".toList) (.cons (.rep (.seq (.cons (.token ",".toList)
      (.cons (.node "RDoubleValue".toList) .nil)))) .nil)))]

/-- What is generated for it. -/
theorem example_ast : makeAst exampleGram = some
    [("RIfStatement".toList, .node [.token "if".toList ["if".toList] false false,
        .node "condition".toList "AnyRExpression".toList false false,
        .node "else_clause".toList "RElseClause".toList true false] false),
     ("RElseClause".toList, .node [.token "else".toList ["else".toList] false false,
        .node "AnyRExpression".toList "AnyRExpression".toList false false] false),
     ("AnyRExpression".toList, .union ["RIfStatement".toList, "AnyRValue".toList]),
     ("AnyRValue".toList, .union ["RDoubleValue".toList, "RUnaryExpression".toList]),
     ("RDoubleValue".toList, .node [.token "value".toList ["r_double".toList] false false] false),
     ("RUnaryExpression".toList, .node [.token "operator".toList ["+".toList, "-".toList] false false,
        .node "argument".toList "AnyRExpression".toList false false] false),
     ("RArgumentList".toList, .list "RDoubleValue".toList (some (",".toList, false)))] := by decide +kernel

/-- `if` without `else`: the last slot is empty. -/
example : (makeAst exampleGram).bind (fun ast => makeSyntax ast 3 "RIfStatement".toList
    [.token "if".toList, .node "RUnaryExpression".toList]) =
    some [some (.token "if".toList), some (.node "RUnaryExpression".toList), none] := by decide +kernel

/-- Something that the rule does not describe. -/
example : (makeAst exampleGram).bind (fun ast => makeSyntax ast 3 "RIfStatement".toList
    [.node "RUnaryExpression".toList, .token "if".toList]) = none := by decide +kernel

/-- The unions of the example are nested. -/
theorem example_ranked : Ranked exampleGram 3 := by
  refine ⟨fun n => if n = "AnyRExpression".toList then 2 else if n = "AnyRValue".toList then 1 else 0, ?_, ?_⟩
  · intro n
    simp only
    split
    · omega
    · split <;> omega
  · intro n rs m h _ hm
    simp only [exampleGram, List.mem_cons, Prod.mk.injEq, reduceCtorEq, and_false, false_or, or_false, List.not_mem_nil,
      Rule.alt.injEq] at h
    rcases h with ⟨rfl, rfl⟩ | ⟨rfl, rfl⟩
    · simp only [Rules.toList, List.mem_cons, Rule.node.injEq, List.not_mem_nil, or_false] at hm
      rcases hm with rfl | rfl <;> decide
    · simp only [Rules.toList, List.mem_cons, Rule.node.injEq, List.not_mem_nil, or_false] at hm
      rcases hm with rfl | rfl <;> decide

/-- The hypotheses of `C82_casts` hold: a number is an expression, by way of `AnyRValue`. -/
example : Belongs exampleGram "AnyRExpression".toList (.node "RDoubleValue".toList) :=
  (C82_casts exampleGram _ 3 (by decide +kernel) example_ast example_ranked _ _).1 (by decide +kernel)

/-- C82: why the condition on optional fields is needed. In `A = B? B` a single `B` fills the optional slot, and the one that
the rule requires is empty. -/
theorem C82_shadowed :
    let r : Rule Name := .seq (.cons (.opt (.node ['B'])) (.cons (.node ['B']) .nil))
    let g : Gram := [(['A'], r), (['B'], .token ['b'])]
    let ast := [(['A'], Def.node [.node ['B'] ['B'] true false, .node ['B'] ['B'] false false] false),
      (['B'], .node [.token ['b'] [['b']] false false] false)]
    makeAst g = some ast ∧ Lang g r [.node ['B']] ∧
    makeSyntax ast 1 ['A'] [.node ['B']] = some [some (.node ['B']), none] := by
  refine ⟨by decide +kernel, .seq (.cons (cs := []) .absent (.cons (cs := [.node ['B']]) (.node ?_) .nil)), by decide +kernel⟩
  exact .own (r := .token ['b']) (by simp) (by decide) (by rintro ⟨_, h, _⟩; cases h)

end Verif.Ungrammar
