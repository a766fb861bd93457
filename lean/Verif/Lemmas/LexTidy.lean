import Verif.Lemmas.Lexer

/-!
# Lexing printed elements
-/

namespace Verif.Format
open Verif.Syntax

/-- Only the innermost open token may be a string, and it starts with something. -/
def Stack (st : List Tok) : Prop := StackOk st ∧ ∀ t ∈ st.tail, t.kind ≠ .stringOpen

theorem Stack.nil : Stack [] := ⟨(fun q h => by cases h), (fun t h => by cases h)⟩

theorem openString_cons (t : Tok) (st : List Tok) :
    openString (t :: st) = if t.kind = .stringOpen then some t.text else none := rfl

theorem openString_of {st : List Tok} (h : ∀ t ∈ st, t.kind ≠ .stringOpen) : openString st = none := by
  cases st with
  | nil => rfl
  | cons t st =>
    rw [openString_cons, if_neg (h t (List.mem_cons_self ..))]

theorem Stack.all {st : List Tok} (h : Stack st) (h0 : openString st = none) :
    ∀ t ∈ st, t.kind ≠ .stringOpen := by
  cases st with
  | nil => intro t ht; cases ht
  | cons u st =>
    intro t ht
    rcases List.mem_cons.1 ht with rfl | ht
    · intro hk
      rw [openString_cons, if_pos hk] at h0
      cases h0
    · exact h.2 t ht

/-- The part of a string that may be open after `t`. -/
def holds (t : Tok) : Bool := t.kind == .stringOpen || t.kind == .stringContent

theorem kind_code {two : Bool} {text : List Byte} {s : Scan} {k : Kind} (h : finish two text = some s)
    (hk : s.kind text = some k) : k ≠ .stringContent ∧ k ≠ .stringClose := by
  have hw : ∀ w, wordKind w ≠ .stringContent ∧ wordKind w ≠ .stringClose := by
    intro w
    unfold wordKind
    split
    · rename_i p hp
      have hm := List.mem_of_find?_eq_some hp
      have : ∀ p ∈ reserved, p.2 ≠ .stringContent ∧ p.2 ≠ .stringClose := by decide
      exact this p hm
    · split
      · split <;> decide
      · decide
  have hd : ∀ (bs : List Byte) (s' : Scan), (∀ k', s' = .done k' → k' ≠ .stringContent ∧ k' ≠ .stringClose) →
      s'.run bs = some s → (∀ k', s = .done k' → k' ≠ .stringContent ∧ k' ≠ .stringClose) := by
    intro bs
    induction bs with
    | nil =>
      intro s' h1 h2
      cases h2
      exact h1
    | cons b bs ih =>
      intro s' h1 h2
      rw [Scan.run] at h2
      cases hb : s'.step b with
      | none =>
        rw [hb] at h2
        cases h2
      | some s1 =>
        rw [hb, Option.bind_some] at h2
        refine ih s1 ?_ h2
        intro k' hk'
        subst hk'
        have hsf : ∀ k', suffix b = some (.done k') → k' ≠ .stringContent ∧ k' ≠ .stringClose := by
          intro k' hk'
          unfold suffix at hk'
          repeat' split at hk'
          all_goals first | (cases hk'; decide) | cases hk'
        cases s' <;> simp only [Scan.step] at hb <;> repeat' split at hb
        all_goals first
          | exact hsf _ hb
          | (cases hb; done)
          | (have hb := Option.some.inj hb; cases hb; decide)
          | (have hb := Option.some.inj hb; split at hb <;> first | (cases hb; done) | (split at hb <;> first | (cases hb; done) | (cases hb; decide)))
  have hs : ∀ k', s = .done k' → k' ≠ .stringContent ∧ k' ≠ .stringClose := by
    cases text with
    | nil => cases h
    | cons b bs =>
      rw [finish] at h
      cases hb : start two b with
      | none =>
        rw [hb] at h
        cases h
      | some s0 =>
        rw [hb, Option.bind_some] at h
        refine hd bs s0 ?_ h
        intro k' hk'
        subst hk'
        unfold start at hb
        repeat' split at hb
        all_goals first
          | (cases hb; done)
          | (have hb := Option.some.inj hb; cases hb; decide)
          | (have hb := Option.some.inj hb; split at hb <;> first | (cases hb; done) | (cases hb; decide))
  cases s with
  | symbol t =>
    simp only [Scan.kind, Option.map_eq_some_iff] at hk
    obtain ⟨p, hp, rfl⟩ := hk
    have hm := List.mem_of_find?_eq_some hp
    have : ∀ p ∈ symbols, p.2 ≠ .stringContent ∧ p.2 ≠ .stringClose := by decide
    exact this p hm
  | done k' =>
    simp only [Scan.kind, Option.some.injEq] at hk
    subst hk
    exact hs _ rfl
  | name | rawName | dot =>
    simp only [Scan.kind, Option.some.injEq] at hk
    subst hk
    exact hw _
  | _ =>
    simp only [Scan.kind] at hk
    first
      | (cases hk; done)
      | (cases hk; decide)

/-- After `t` a string is open exactly if `t` is its beginning or its content. -/
theorem stack_after {st : List Tok} (hst : Stack st) {t : Tok} (h : Fine st t) :
    Stack (openAfter st t) ∧ (openString (openAfter st t)).isSome = holds t := by
  have hne := h.ne hst.1
  unfold Fine at h
  cases hq : openString st with
  | some q =>
    rw [hq] at h
    have hst0 : ∃ u r, st = u :: r ∧ u.kind = .stringOpen := by
      cases st with
      | nil => cases hq
      | cons u r =>
        refine ⟨u, r, rfl, ?_⟩
        rw [openString_cons] at hq
        by_cases hu : u.kind = .stringOpen
        · exact hu
        · rw [if_neg hu] at hq
          cases hq
    obtain ⟨u, r, rfl, hu⟩ := hst0
    rcases h with ⟨hk, _⟩ | ⟨hk, _, _⟩
    · have h1 : openAfter (u :: r) t = r := by
        unfold openAfter
        rw [hk]
        rfl
      have h2 : holds t = false := by unfold holds; rw [hk]; rfl
      rw [h1, h2]
      refine ⟨⟨?_, ?_⟩, ?_⟩
      · intro q' hq'
        rw [show openString r = none from openString_of hst.2] at hq'
        cases hq'
      · intro v hv
        exact hst.2 v (List.mem_of_mem_tail hv)
      · rw [show openString r = none from openString_of hst.2]
        rfl
    · have h1 : openAfter (u :: r) t = u :: r := by
        unfold openAfter
        rw [hk]
        rfl
      have h2 : holds t = true := by unfold holds; rw [hk]; rfl
      rw [h1, h2, hq]
      exact ⟨hst, rfl⟩
  | none =>
    rw [hq] at h
    obtain ⟨s, h1, h2⟩ := h
    have hk := kind_code h1 h2
    have hall := hst.all hq
    by_cases ho : opens t.kind = true
    · have h3 : openAfter st t = t :: st := by
        unfold openAfter
        rw [if_pos ho]
      rw [h3]
      refine ⟨⟨?_, hall⟩, ?_⟩
      · intro q' hq'
        rw [openString_cons] at hq'
        by_cases hs : t.kind = .stringOpen
        · rw [if_pos hs] at hq'
          cases hq'
          exact hne
        · rw [if_neg hs] at hq'
          cases hq'
      · rw [openString_cons]
        unfold holds
        by_cases hs : t.kind = .stringOpen
        · rw [if_pos hs, hs]
          rfl
        · rw [if_neg hs, beq_eq_false_iff_ne.2 hs, beq_eq_false_iff_ne.2 hk.1]
          rfl
    · have h3 : ∀ u ∈ openAfter st t, u.kind ≠ .stringOpen := by
        unfold openAfter
        rw [if_neg ho]
        split
        · intro u hu
          exact hall u (List.mem_of_mem_tail hu)
        · exact hall
      refine ⟨⟨?_, ?_⟩, ?_⟩
      · intro q' hq'
        rw [openString_of h3] at hq'
        cases hq'
      · intro u hu
        exact h3 u (List.mem_of_mem_tail hu)
      · rw [openString_of h3]
        unfold holds
        have hs : t.kind ≠ .stringOpen := by
          intro hs
          rw [hs] at ho
          exact ho rfl
        rw [beq_eq_false_iff_ne.2 hs, beq_eq_false_iff_ne.2 hk.1]
        rfl

/-! ## Lists of elements -/

/-- The texts of comments and blanks. -/
def Trivial : El → Prop
  | .tok _ => True
  | .comment t => ∃ r, t = 35 :: r ∧ (10 : Byte) ∉ r
  | .blank bs => ∀ b ∈ bs, isBlank b = true ∨ b = 59
  | .rnl => True
  | _ => False

/-- No token comes after a comment on the same line; `c`: in a comment. -/
def Hushed : Bool → List El → Prop
  | _, [] => True
  | c, .tok _ :: es => c = false ∧ Hushed false es
  | _, .comment _ :: es => Hushed true es
  | _, .rnl :: es => Hushed false es
  | c, _ :: es => Hushed c es

/-- Nothing comes between the tokens of a string; `b`: in a string. -/
def Unbroken : Bool → List El → Prop
  | b, [] => b = false
  | _, .tok t :: es => Unbroken (holds t) es
  | b, _ :: es => b = false ∧ Unbroken false es

/-- Every token is read as such. -/
def Parted : List Tok → List El → Prop
  | _, [] => True
  | st, .tok t :: es => Fine st t ∧ Stops st t (render es) ∧ Parted (openAfter st t) es
  | st, _ :: es => Parted st es

theorem start_blank {two : Bool} {b : Byte} (h : b = 10 ∨ b = 59 ∨ isBlank b = true ∨ b = 35) :
    start two b = none := by
  have : ∀ b ∈ ([10, 59, 9, 11, 12, 13, 32, 35] : List Byte), ∀ two, start two b = none := by decide
  refine this b ?_ two
  rcases h with rfl | rfl | h | rfl
  · decide
  · decide
  · unfold isBlank at h
    simp only [Bool.or_eq_true, beq_iff_eq] at h
    rcases h with (((rfl | rfl) | rfl) | rfl) | rfl <;> decide
  · decide

theorem lexFrom_nil {st : List Tok} (h : openString st = none) (n : Nat) (fresh : Bool) :
    lexFrom (n + 1) st fresh [] = some [] := by
  rw [lexFrom.eq_def]
  simp [h]

theorem lexFrom_string {st : List Tok} (h : (openString st).isSome = true) (n : Nat) (fresh : Bool)
    (bs : List Byte) :
    lexFrom (n + 1) st fresh bs =
      match nextTok st bs with
      | none => none
      | some (t, rest) => (lexFrom n (openAfter st t) false rest).map ((fresh, t) :: ·) := by
  rw [lexFrom.eq_def]
  simp only [h, if_true]
  rfl

theorem lexFrom_code {st : List Tok} (h : openString st = none) (n : Nat) (fresh : Bool) (b : Byte)
    (bs : List Byte) :
    lexFrom (n + 1) st fresh (b :: bs) =
      if b = 10 ∨ b = 59 then lexFrom n st true bs
      else if isBlank b = true then lexFrom n st fresh bs
      else if b = 35 then lexFrom n st fresh (bs.dropWhile (fun c => c != 10))
      else
        match nextTok st (b :: bs) with
        | none => none
        | some (t, rest) => (lexFrom n (openAfter st t) false rest).map ((fresh, t) :: ·) := by
  rw [lexFrom.eq_def]
  simp only [h, Option.isSome_none, Bool.false_eq_true, if_false]
  rfl

theorem lex_blanks {st : List Tok} (hst : openString st = none) : ∀ (bs : List Byte) (n : Nat) (fresh : Bool)
    (rest : List Byte), (∀ b ∈ bs, isBlank b = true ∨ b = 59) →
    lexFrom (n + bs.length) st fresh (bs ++ rest) = lexFrom n st (fresh || bs.contains 59) rest
  | [], n, fresh, rest, _ => by simp
  | b :: bs, n, fresh, rest, h => by
    have ih := fun f => lex_blanks hst bs n f rest (fun c hc => h c (List.mem_cons_of_mem _ hc))
    have e : n + (b :: bs).length = (n + bs.length) + 1 := rfl
    rw [e, List.cons_append, lexFrom_code hst]
    by_cases h59 : b = 59
    · rw [if_pos (.inr h59), ih, h59]
      simp
    · have hb := (h b (List.mem_cons_self ..)).resolve_right h59
      have h10 : b ≠ 10 := by
        rintro rfl
        exact absurd hb (by decide)
      rw [if_neg (fun h => h.elim h10 h59), if_pos hb, ih]
      congr 1
      have : ((59 : Byte) == b) = false := beq_eq_false_iff_ne.2 (fun h => h59 h.symm)
      rw [List.contains_cons, this, Bool.false_or]

theorem dropLine_append {xs rest : List Byte} (h : (10 : Byte) ∉ xs) :
    (xs ++ rest).dropWhile (fun c => c != 10) = rest.dropWhile (fun c => c != 10) := by
  rw [List.dropWhile_append_of_pos]
  intro b hb
  simp only [bne_iff_ne]
  rintro rfl
  exact h hb

theorem blank_no_newline {bs : List Byte} (h : ∀ b ∈ bs, isBlank b = true ∨ b = 59) : (10 : Byte) ∉ bs := by
  intro hb
  rcases h _ hb with h | h
  · exact absurd h (by decide)
  · exact absurd h (by decide)

/-- The state of the reader. -/
def rstate (fresh : Bool) : RState := if fresh then .fresh else .inside

theorem rstate_ne (f : Bool) : rstate f ≠ .comment := by cases f <;> decide

theorem rstate_fresh (f : Bool) : decide (rstate f = .fresh) = f := by cases f <;> decide

theorem seen_blank (f : Bool) (bs : List Byte) (es : List El) :
    seen (rstate f) (.blank bs :: es) = seen (rstate (f || bs.contains 59)) es := by
  cases f
  · simp only [seen, List.nil_append, rstate, RState.after, Bool.false_or]
    cases h : bs.contains 59 <;> simp
  · simp [seen, rstate, RState.after]

theorem seen_tok (f : Bool) (t : Tok) (es : List El) :
    seen (rstate f) (.tok t :: es) = (f, t) :: seen (rstate false) es := by
  simp only [seen]
  rw [if_neg (rstate_ne f)]
  cases f <;> simp [rstate, RState.after]

/-- Parted elements are lexed as what they are. -/
theorem lex_tidy : ∀ (els : List El) (c : Bool) (st : List Tok) (fresh : Bool) (n : Nat), Parted st els →
    (∀ e ∈ els, Trivial e) → Hushed c els → Unbroken (openString st).isSome els → Stack st →
    (render els).length < n → (c = true → openString st = none) →
    lexFrom n st fresh (if c then (render els).dropWhile (fun c => c != 10) else render els) =
      some (seen (if c then .comment else rstate fresh) els)
  | [], c, st, fresh, n, _, _, _, hu, _, hn, _ => by
    have hu : (openString st).isSome = false := hu
    cases n with
    | zero => cases hn
    | succ n =>
      have : (if c = true then List.dropWhile (fun c : Byte => c != 10) (render []) else render []) = [] := by
        cases c <;> rfl
      have hs : openString st = none := by
        cases h : openString st with
        | none => rfl
        | some q => rw [h] at hu; cases hu
      rw [this, lexFrom_nil hs]
      simp [seen]
  | .tok t :: es, c, st, fresh, n, ht, hp, hh, hu, hst, hn, _ => by
    obtain ⟨h1, h2, h3⟩ := ht
    obtain ⟨rfl, hh⟩ := hh
    have hn' : t.text.length + (render es).length < n := by
      simpa [render] using hn
    have hlen : 0 < t.text.length := List.length_pos_iff.2 (h1.ne hst.1)
    obtain ⟨hst', hopen⟩ := stack_after hst h1
    cases n with
    | zero => cases hn
    | succ n =>
      have ih := lex_tidy es false (openAfter st t) false n h3
        (fun e he => hp e (List.mem_cons_of_mem _ he)) hh (by rw [hopen]; exact hu) hst' (by omega)
        (fun h => by cases h)
      simp only [Bool.false_eq_true, if_false] at ih ⊢
      have hnext : nextTok st (t.text ++ render es) = some (t, render es) :=
        (nextTok_iff hst.1 _ _ _).2 ⟨rfl, h1, h2⟩
      rw [seen_tok]
      by_cases hs : (openString st).isSome = true
      · rw [render, lexFrom_string hs, hnext]
        simp only [ih, Option.map_some]
      · have hs : openString st = none := by
          cases h : openString st with
          | none => rfl
          | some q => rw [h] at hs; exact absurd rfl hs
        have h1' := h1
        unfold Fine at h1'
        rw [hs] at h1'
        obtain ⟨s, hf, _⟩ := h1'
        rw [render]
        cases htx : t.text with
        | nil => rw [htx] at hlen; cases hlen
        | cons b bs =>
          rw [htx] at hf hnext
          have hstart : start (openTwo st) b ≠ none := by
            intro h0
            rw [finish, h0] at hf
            cases hf
          simp only [List.cons_append] at hnext ⊢
          rw [lexFrom_code hs, if_neg (fun h => hstart (start_blank (by rcases h with h | h <;> simp [h]))),
            if_neg (fun h => hstart (start_blank (by simp [h]))),
            if_neg (fun h => hstart (start_blank (by simp [h]))), hnext]
          simp only [ih, Option.map_some]
  | .comment t :: es, c, st, fresh, n, ht, hp, hh, hu, hst, hn, _ => by
    obtain ⟨hu0, hu⟩ := hu
    have hs : openString st = none := by
      cases h : openString st with
      | none => rfl
      | some q => rw [h] at hu0; cases hu0
    obtain ⟨r, rfl, hr⟩ := hp _ (List.mem_cons_self ..)
    have hn' : r.length + 1 + (render es).length < n := by
      have : (render (El.comment (35 :: r) :: es)).length = r.length + 1 + (render es).length := by
        simp [render, Nat.add_right_comm]
      omega
    have ih := fun m (hm : (render es).length < m) => lex_tidy es true st fresh m ht
      (fun e he => hp e (List.mem_cons_of_mem _ he)) hh (by rw [hs]; exact hu) hst hm (fun _ => hs)
    simp only [if_true] at ih
    have hseen : ∀ s, seen s (.comment (35 :: r) :: es) = seen .comment es := by
      intro s
      simp [seen, RState.after]
    cases c with
    | true =>
      simp only [if_true, render]
      rw [dropLine_append, hseen]
      · exact ih n (by omega)
      · intro h10
        rcases List.mem_cons.1 h10 with h | h
        · exact absurd h (by decide)
        · exact hr h
    | false =>
      simp only [Bool.false_eq_true, if_false, render]
      cases n with
      | zero => omega
      | succ n =>
        rw [List.cons_append, lexFrom_code hs, hseen]
        rw [if_neg (by decide), if_neg (by decide), if_pos rfl, dropLine_append hr]
        exact ih n (by omega)
  | .blank bs :: es, c, st, fresh, n, ht, hp, hh, hu, hst, hn, hc => by
    obtain ⟨hu0, hu⟩ := hu
    have hs : openString st = none := by
      cases h : openString st with
      | none => rfl
      | some q => rw [h] at hu0; cases hu0
    have hb : ∀ b ∈ bs, isBlank b = true ∨ b = 59 := hp _ (List.mem_cons_self ..)
    have hn' : bs.length + (render es).length < n := by
      have : (render (El.blank bs :: es)).length = bs.length + (render es).length := by
        simp [render]
      omega
    have ih := fun f m (hm : (render es).length < m) => lex_tidy es c st f m ht
      (fun e he => hp e (List.mem_cons_of_mem _ he)) hh (by rw [hs]; exact hu) hst hm (fun _ => hs)
    cases c with
    | true =>
      simp only [if_true, render] at ih ⊢
      rw [dropLine_append (blank_no_newline hb)]
      have : seen .comment (.blank bs :: es) = seen .comment es := by
        simp [seen, RState.after]
      rw [this]
      exact ih fresh n (by omega)
    | false =>
      simp only [Bool.false_eq_true, if_false, render] at ih ⊢
      rw [seen_blank, show n = (n - bs.length) + bs.length by omega, lex_blanks hs _ _ _ _ hb]
      exact ih _ _ (by omega)
  | .rnl :: es, c, st, fresh, n, ht, hp, hh, hu, hst, hn, hc => by
    obtain ⟨hu0, hu⟩ := hu
    have hs : openString st = none := by
      cases h : openString st with
      | none => rfl
      | some q => rw [h] at hu0; cases hu0
    have hn' : 1 + (render es).length < n := by
      have : (render (El.rnl :: es)).length = 1 + (render es).length := by
        simp [render, Nat.add_comm]
      omega
    have hd : (if c = true then List.dropWhile (fun c : Byte => c != 10) (render (.rnl :: es))
        else render (.rnl :: es)) = 10 :: render es := by
      cases c <;> simp [render]
    have hseen : seen (if c = true then .comment else rstate fresh) (.rnl :: es) = seen (rstate true) es := by
      simp [seen, RState.after, rstate]
    cases n with
    | zero => omega
    | succ n =>
      have ih := lex_tidy es false st true n ht
        (fun e he => hp e (List.mem_cons_of_mem _ he)) hh (by rw [hs]; exact hu) hst (by omega)
        (fun h => by cases h)
      simp only [Bool.false_eq_true, if_false] at ih
      rw [hd, hseen, lexFrom_code hs]
      rw [if_pos (.inl rfl)]
      exact ih
  | .suffix .. :: es, c, st, fresh, n, ht, hp, hh, hu, hst, hn, hc =>
    (hp _ (List.mem_cons_self ..)).elim
  | .space :: es, c, st, fresh, n, ht, hp, hh, hu, hst, hn, hc =>
    (hp _ (List.mem_cons_self ..)).elim
  | .nl .. :: es, c, st, fresh, n, ht, hp, hh, hu, hst, hn, hc =>
    (hp _ (List.mem_cons_self ..)).elim

/-! ## The other way round -/

theorem lex_head : ∀ (n : Nat) (st : List Tok) (fresh f : Bool) (bs : List Byte) (t : Tok) (ts : Seen),
    openString st = none → lexFrom n st fresh bs = some ((f, t) :: ts) →
    ∃ b r, t.text = b :: r ∧ start (openTwo st) b ≠ none
  | 0, _, _, _, _, _, _, _, h => by cases h
  | n + 1, st, fresh, f, bs, t, ts, hs, h => by
    cases bs with
    | nil =>
      rw [lexFrom_nil hs] at h
      cases h
    | cons b bs =>
      rw [lexFrom_code hs] at h
      split at h
      · exact lex_head n st true f bs t ts hs h
      · split at h
        · exact lex_head n st fresh f bs t ts hs h
        · split at h
          · exact lex_head n st fresh f _ t ts hs h
          · split at h
            · cases h
            · rename_i t' rest hn
              have hn := (nextTok_iff (fun q hq => by rw [hs] at hq; cases hq) _ _ _).1 hn
              cases hl : lexFrom n (openAfter st t') false rest with
              | none => rw [hl] at h; cases h
              | some out =>
                rw [hl] at h
                simp only [Option.map_some, Option.some.injEq, List.cons.injEq, Prod.mk.injEq] at h
                obtain ⟨⟨-, rfl⟩, -⟩ := h
                have hf := hn.2.1
                unfold Fine at hf
                rw [hs] at hf
                obtain ⟨s, hf, -⟩ := hf
                cases ht : t'.text with
                | nil => rw [ht] at hf; cases hf
                | cons b r =>
                  refine ⟨b, r, rfl, ?_⟩
                  intro h0
                  rw [ht, finish, h0] at hf
                  cases hf

/-- Elements that are lexed as what they are, are tidy. -/
theorem tidy_lex : ∀ (els : List El) (c : Bool) (st : List Tok) (fresh : Bool) (n : Nat),
    (∀ e ∈ els, Trivial e) → Hushed c els → Unbroken (openString st).isSome els → Stack st →
    (render els).length < n → (c = true → openString st = none) →
    lexFrom n st fresh (if c then (render els).dropWhile (fun c => c != 10) else render els) =
      some (seen (if c then .comment else rstate fresh) els) → Parted st els
  | [], _, _, _, _, _, _, _, _, _, _, _ => trivial
  | .tok t :: es, c, st, fresh, n, hp, hh, hu, hst, hn, _, h => by
    obtain ⟨rfl, hh⟩ := hh
    simp only [Bool.false_eq_true, if_false] at h
    rw [seen_tok] at h
    have key : ∃ m, n = m + 1 ∧ nextTok st (t.text ++ render es) = some (t, render es) ∧
        lexFrom m (openAfter st t) false (render es) = some (seen (rstate false) es) := by
      cases n with
      | zero => cases h
      | succ m =>
        refine ⟨m, rfl, ?_⟩
        have fin : ∀ (r : Option (Tok × List Byte)), r = nextTok st (t.text ++ render es) →
            (match r with
              | none => none
              | some (t', rest) =>
                (lexFrom m (openAfter st t') false rest).map ((fresh, t') :: ·)) =
              some ((fresh, t) :: seen (rstate false) es) →
            nextTok st (t.text ++ render es) = some (t, render es) ∧
              lexFrom m (openAfter st t) false (render es) = some (seen (rstate false) es) := by
          intro r hr hm
          cases hr' : r with
          | none => rw [hr'] at hm; cases hm
          | some p =>
            obtain ⟨t', rest⟩ := p
            rw [hr'] at hm
            simp only at hm
            cases hl : lexFrom m (openAfter st t') false rest with
            | none => rw [hl] at hm; cases hm
            | some out =>
              rw [hl] at hm
              simp only [Option.map_some, Option.some.injEq, List.cons.injEq, Prod.mk.injEq, true_and] at hm
              obtain ⟨rfl, rfl⟩ := hm
              have hnx : nextTok st (t'.text ++ render es) = some (t', rest) := by rw [← hr, hr']
              have := ((nextTok_iff hst.1 _ _ _).1 hnx).1
              have := List.append_cancel_left this
              subst this
              exact ⟨hnx, hl⟩
        rw [render] at h
        by_cases hs : (openString st).isSome = true
        · rw [lexFrom_string hs] at h
          exact fin _ rfl h
        · have hs' : openString st = none := by
            cases h : openString st with
            | none => rfl
            | some q => rw [h] at hs; exact absurd rfl hs
          obtain ⟨b, r, htx, hstart⟩ := lex_head _ _ _ _ _ _ _ hs' h
          rw [htx, List.cons_append, lexFrom_code hs'] at h
          rw [if_neg (fun h => hstart (start_blank (by rcases h with h | h <;> simp [h]))),
            if_neg (fun h => hstart (start_blank (by simp [h]))),
            if_neg (fun h => hstart (start_blank (by simp [h])))] at h
          exact fin _ (by rw [htx]; rfl) h
    obtain ⟨m, rfl, hnx, hl⟩ := key
    obtain ⟨-, h1, h2⟩ := (nextTok_iff hst.1 _ _ _).1 hnx
    obtain ⟨hst', hopen⟩ := stack_after hst h1
    have hlen : 0 < t.text.length := List.length_pos_iff.2 (h1.ne hst.1)
    have hn' : t.text.length + (render es).length < m + 1 := by
      simpa [render] using hn
    exact ⟨h1, h2, tidy_lex es false (openAfter st t) false m
      (fun e he => hp e (List.mem_cons_of_mem _ he)) hh (by rw [hopen]; exact hu) hst' (by omega)
      (fun h => by cases h) hl⟩
  | .comment t :: es, c, st, fresh, n, hp, hh, hu, hst, hn, _, h => by
    obtain ⟨hu0, hu⟩ := hu
    have hs : openString st = none := by
      cases h : openString st with
      | none => rfl
      | some q => rw [h] at hu0; cases hu0
    obtain ⟨r, rfl, hr⟩ := hp _ (List.mem_cons_self ..)
    have hn' : r.length + 1 + (render es).length < n := by
      have : (render (El.comment (35 :: r) :: es)).length = r.length + 1 + (render es).length := by
        simp [render, Nat.add_right_comm]
      omega
    have ih := fun m (hm : (render es).length < m) => tidy_lex es true st fresh m
      (fun e he => hp e (List.mem_cons_of_mem _ he)) hh (by rw [hs]; exact hu) hst hm (fun _ => hs)
    simp only [if_true] at ih
    have hseen : ∀ s, seen s (.comment (35 :: r) :: es) = seen .comment es := by
      intro s
      simp [seen, RState.after]
    cases c with
    | true =>
      simp only [if_true, render] at h
      rw [dropLine_append, hseen] at h
      · exact ih n (by omega) h
      · intro h10
        rcases List.mem_cons.1 h10 with h | h
        · exact absurd h (by decide)
        · exact hr h
    | false =>
      simp only [Bool.false_eq_true, if_false, render] at h
      cases n with
      | zero => omega
      | succ n =>
        rw [List.cons_append, lexFrom_code hs, hseen] at h
        rw [if_neg (by decide), if_neg (by decide), if_pos rfl, dropLine_append hr] at h
        exact ih n (by omega) h
  | .blank bs :: es, c, st, fresh, n, hp, hh, hu, hst, hn, hc, h => by
    obtain ⟨hu0, hu⟩ := hu
    have hs : openString st = none := by
      cases h : openString st with
      | none => rfl
      | some q => rw [h] at hu0; cases hu0
    have hb : ∀ b ∈ bs, isBlank b = true ∨ b = 59 := hp _ (List.mem_cons_self ..)
    have hn' : bs.length + (render es).length < n := by
      have : (render (El.blank bs :: es)).length = bs.length + (render es).length := by
        simp [render]
      omega
    have ih := fun f m (hm : (render es).length < m) => tidy_lex es c st f m
      (fun e he => hp e (List.mem_cons_of_mem _ he)) hh (by rw [hs]; exact hu) hst hm (fun _ => hs)
    cases c with
    | true =>
      simp only [if_true, render] at ih h
      rw [dropLine_append (blank_no_newline hb)] at h
      have : seen .comment (.blank bs :: es) = seen .comment es := by
        simp [seen, RState.after]
      rw [this] at h
      exact ih fresh n (by omega) h
    | false =>
      simp only [Bool.false_eq_true, if_false, render] at ih h
      rw [seen_blank, show n = (n - bs.length) + bs.length by omega, lex_blanks hs _ _ _ _ hb] at h
      exact ih _ _ (by omega) h
  | .rnl :: es, c, st, fresh, n, hp, hh, hu, hst, hn, hc, h => by
    obtain ⟨hu0, hu⟩ := hu
    have hs : openString st = none := by
      cases h : openString st with
      | none => rfl
      | some q => rw [h] at hu0; cases hu0
    have hn' : 1 + (render es).length < n := by
      have : (render (El.rnl :: es)).length = 1 + (render es).length := by
        simp [render, Nat.add_comm]
      omega
    have hd : (if c = true then List.dropWhile (fun c : Byte => c != 10) (render (.rnl :: es))
        else render (.rnl :: es)) = 10 :: render es := by
      cases c <;> simp [render]
    have hseen : seen (if c = true then .comment else rstate fresh) (.rnl :: es) = seen (rstate true) es := by
      simp [seen, RState.after, rstate]
    cases n with
    | zero => omega
    | succ n =>
      rw [hd, hseen, lexFrom_code hs] at h
      rw [if_pos (.inl rfl)] at h
      exact tidy_lex es false st true n
        (fun e he => hp e (List.mem_cons_of_mem _ he)) hh (by rw [hs]; exact hu) hst (by omega)
        (fun h => by cases h) h
  | .suffix .. :: es, c, st, fresh, n, hp, hh, hu, hst, hn, hc, h =>
    (hp _ (List.mem_cons_self ..)).elim
  | .space :: es, c, st, fresh, n, hp, hh, hu, hst, hn, hc, h =>
    (hp _ (List.mem_cons_self ..)).elim
  | .nl .. :: es, c, st, fresh, n, hp, hh, hu, hst, hn, hc, h =>
    (hp _ (List.mem_cons_self ..)).elim

end Verif.Format
