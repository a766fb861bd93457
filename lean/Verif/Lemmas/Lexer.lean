import Verif.Spec.Lexer

/-!
# The lexer: where tokens end
-/

namespace Verif.Format
open Verif.Syntax

/-! ## Scanning -/

/-- The state after all bytes of `bs`, if they all belong to the token. -/
def Scan.run (s : Scan) : List Byte → Option Scan
  | [] => some s
  | b :: bs => (s.step b).bind (fun s' => s'.run bs)

/-- The state at the end of a token. -/
def finish (two : Bool) : List Byte → Option Scan
  | [] => none
  | b :: bs => (start two b).bind (fun s => s.run bs)

/-- What follows does not belong to the token. -/
def Scan.stops (s : Scan) (rest : List Byte) : Prop := ∀ b ∈ rest.head?, s.step b = none

theorem munch_run : ∀ (bs : List Byte) (s : Scan),
    bs = (s.munch bs).1 ++ (s.munch bs).2.1 ∧ s.run (s.munch bs).1 = some (s.munch bs).2.2 ∧
      (s.munch bs).2.2.stops (s.munch bs).2.1
  | [], s => by
    refine ⟨rfl, rfl, ?_⟩
    intro b hb
    cases hb
  | b :: bs, s => by
    unfold Scan.munch
    cases h : s.step b with
    | none =>
      refine ⟨rfl, rfl, ?_⟩
      intro c hc
      simp only [List.head?_cons, Option.mem_def, Option.some.injEq] at hc
      rw [← hc]
      exact h
    | some s' =>
      obtain ⟨h1, h2, h3⟩ := munch_run bs s'
      refine ⟨?_, ?_, h3⟩
      · rw [List.cons_append, ← h1]
      · simp only [Scan.run, h, Option.bind_some]
        exact h2

theorem munch_append : ∀ (xs : List Byte) (s s' : Scan) (rest : List Byte), s.run xs = some s' →
    s'.stops rest → s.munch (xs ++ rest) = (xs, rest, s')
  | [], s, s', rest, h, hr => by
    cases h
    cases rest with
    | nil => rfl
    | cons b bs =>
      rw [List.nil_append, Scan.munch, hr b rfl]
  | b :: bs, s, s', rest, h, hr => by
    rw [Scan.run] at h
    cases hb : s.step b with
    | none =>
      rw [hb] at h
      cases h
    | some s1 =>
      rw [hb, Option.bind_some] at h
      rw [List.cons_append, Scan.munch, hb]
      simp only [munch_append bs s1 s' rest h hr]

/-- Outside of strings: what the next token is. -/
theorem nextCode_iff (two : Bool) (bs : List Byte) (t : Tok) (rest : List Byte) :
    nextCode two bs = some (t, rest) ↔
      bs = t.text ++ rest ∧
        ∃ s, finish two t.text = some s ∧ s.kind t.text = some t.kind ∧ s.stops rest := by
  constructor
  · intro h
    cases bs with
    | nil => cases h
    | cons b bs =>
      simp only [nextCode] at h
      cases hs : start two b with
      | none =>
        rw [hs] at h
        cases h
      | some s =>
        rw [hs] at h
        obtain ⟨h1, h2, h3⟩ := munch_run bs s
        simp only at h
        cases hk : (s.munch bs).2.2.kind (b :: (s.munch bs).1) with
        | none =>
          rw [hk] at h
          cases h
        | some k =>
          rw [hk] at h
          have h := Option.some.inj h
          have ht : _ = t := congrArg Prod.fst h
          have hr : _ = rest := congrArg Prod.snd h
          rw [← ht, ← hr]
          refine ⟨?_, (s.munch bs).2.2, ?_, hk, h3⟩
          · exact congrArg (b :: ·) h1
          · simp only [finish, hs, Option.bind_some]
            exact h2
  · rintro ⟨rfl, s, h1, h2, h3⟩
    obtain ⟨k, text⟩ := t
    cases text with
    | nil => cases h1
    | cons b xs =>
      simp only [finish] at h1
      simp only [List.cons_append, nextCode]
      cases hs : start two b with
      | none =>
        rw [hs] at h1
        cases h1
      | some s0 =>
        rw [hs, Option.bind_some] at h1
        simp only [munch_append xs s0 s rest h1 h3]
        simp only at h2
        rw [h2]

/-! ## Strings -/

theorem plainBody_split (q : Byte) : ∀ (bs c r : List Byte), plainBody q bs = some (c, r) →
    bs = c ++ r ∧ r.head? = some q
  | [], c, r, h => by cases h
  | [b], c, r, h => by
    unfold plainBody at h
    split at h
    · rename_i hb
      cases h
      exact ⟨rfl, by rw [hb]; rfl⟩
    · cases h
  | b :: d :: bs, c, r, h => by
    unfold plainBody at h
    split at h
    · rename_i hb
      cases h
      exact ⟨rfl, by rw [hb]; rfl⟩
    · split at h
      · cases h1 : plainBody q bs with
        | none =>
          rw [h1] at h
          cases h
        | some p =>
          rw [h1] at h
          cases h
          obtain ⟨h2, h3⟩ := plainBody_split q bs p.1 p.2 h1
          exact ⟨by rw [List.cons_append, List.cons_append, ← h2], h3⟩
      · cases h1 : plainBody q (d :: bs) with
        | none =>
          rw [h1] at h
          cases h
        | some p =>
          rw [h1] at h
          cases h
          obtain ⟨h2, h3⟩ := plainBody_split q (d :: bs) p.1 p.2 h1
          exact ⟨by rw [List.cons_append, ← h2], h3⟩

/-- Where a string ends does not depend on what comes after it. -/
theorem plainBody_local (q : Byte) : ∀ (c r r' : List Byte),
    plainBody q (c ++ q :: r) = some (c, q :: r) → plainBody q (c ++ q :: r') = some (c, q :: r')
  | [], r, r', _ => by
    cases r' with
    | nil => simp [plainBody]
    | cons d r' => simp [plainBody]
  | [b], r, r', h => by
    simp only [List.cons_append, List.nil_append, plainBody] at h ⊢
    split at h
    · cases h
    · rename_i hb
      rw [if_neg hb]
      split at h
      · rename_i h92
        cases h1 : plainBody q r with
        | none =>
          rw [h1] at h
          cases h
        | some p =>
          rw [h1] at h
          have := congrArg (fun x => (Option.map (fun y : List Byte × List Byte => y.1.length) x)) h
          simp at this
      · rename_i h92
        rw [if_neg h92]
        have : plainBody q (q :: r') = some ([], q :: r') := by
          cases r' with
          | nil => simp [plainBody]
          | cons d r' => simp [plainBody]
        rw [this]
        rfl
  | b :: d :: c, r, r', h => by
    simp only [List.cons_append, plainBody] at h ⊢
    split at h
    · cases h
    · rename_i hb
      rw [if_neg hb]
      split at h
      · rename_i h92
        rw [if_pos h92]
        cases h1 : plainBody q (c ++ q :: r) with
        | none =>
          rw [h1] at h
          cases h
        | some p =>
          rw [h1] at h
          have h := Option.some.inj h
          simp only [Prod.mk.injEq, List.cons.injEq, true_and] at h
          rw [plainBody_local q c r r' (by rw [h1, ← h.1, ← h.2])]
          rfl
      · rename_i h92
        rw [if_neg h92]
        cases h1 : plainBody q (d :: (c ++ q :: r)) with
        | none =>
          rw [h1] at h
          cases h
        | some p =>
          rw [h1] at h
          have h := Option.some.inj h
          simp only [Prod.mk.injEq, List.cons.injEq, true_and] at h
          have := plainBody_local q (d :: c) r r' (by
            rw [List.cons_append, h1, ← h.1, ← h.2])
          rw [List.cons_append] at this
          rw [this]
          rfl

theorem rawBody_split (w : List Byte) : ∀ (bs c r : List Byte), rawBody w bs = some (c, r) →
    bs = c ++ r ∧ w.isPrefixOf r = true
  | [], c, r, h => by cases h
  | b :: bs, c, r, h => by
    unfold rawBody at h
    split at h
    · rename_i hp
      cases h
      exact ⟨rfl, hp⟩
    · cases h1 : rawBody w bs with
      | none =>
        rw [h1] at h
        cases h
      | some p =>
        rw [h1] at h
        cases h
        obtain ⟨h2, h3⟩ := rawBody_split w bs p.1 p.2 h1
        exact ⟨by rw [List.cons_append, ← h2], h3⟩

theorem isPrefixOf_append_of_le {w : List Byte} : ∀ {xs r : List Byte}, w.length ≤ xs.length →
    w.isPrefixOf (xs ++ r) = w.isPrefixOf xs := by
  induction w with
  | nil => intros; simp
  | cons a w ih =>
    intro xs r h
    cases xs with
    | nil => simp at h
    | cons x xs =>
      simp only [List.cons_append, List.isPrefixOf]
      rw [ih (by simpa using h)]

theorem rawBody_local {w : List Byte} : ∀ (c r r' : List Byte),
    rawBody w (c ++ (w ++ r)) = some (c, w ++ r) → w ≠ [] → rawBody w (c ++ (w ++ r')) = some (c, w ++ r')
  | [], r, r', _, hw => by
    cases w with
    | nil => exact absurd rfl hw
    | cons a w =>
      simp only [List.nil_append, List.cons_append, rawBody]
      rw [if_pos]
      rw [List.isPrefixOf_iff_prefix]
      exact ⟨r', rfl⟩
  | b :: c, r, r', h, hw => by
    simp only [List.cons_append, rawBody] at h ⊢
    have key : ∀ r, w.isPrefixOf (b :: (c ++ (w ++ r))) = w.isPrefixOf (b :: (c ++ w)) := by
      intro r
      have := isPrefixOf_append_of_le (w := w) (xs := b :: (c ++ w)) (r := r)
        (by simp only [List.length_cons, List.length_append]; omega)
      rwa [List.cons_append, List.append_assoc] at this
    rw [key] at h ⊢
    split at h
    · have := congrArg (fun x => (Option.map (fun y : List Byte × List Byte => y.1.length) x)) h
      simp at this
    · rename_i hp
      rw [if_neg hp]
      cases h1 : rawBody w (c ++ (w ++ r)) with
      | none =>
        rw [h1] at h
        cases h
      | some p =>
        rw [h1] at h
        have h := Option.some.inj h
        simp only [Prod.mk.injEq, List.cons.injEq, true_and] at h
        rw [rawBody_local c r r' (by rw [h1, ← h.1, ← h.2]) hw]
        rfl

theorem closeText_ne {q : List Byte} (h : q ≠ []) : closeText q ≠ [] := by
  match q with
  | [] => exact absurd rfl h
  | [_] => simp [closeText]
  | _ :: _ :: _ => simp [closeText]

theorem isPrefixOf_split {w r : List Byte} (h : w.isPrefixOf r = true) : ∃ r', r = w ++ r' := by
  rw [List.isPrefixOf_iff_prefix] at h
  obtain ⟨r', h⟩ := h
  exact ⟨r', h.symm⟩

theorem stringBody_split {q bs c r : List Byte} (h : stringBody q bs = some (c, r)) :
    bs = c ++ r ∧ ∃ r', r = closeText q ++ r' := by
  unfold stringBody at h
  split at h
  · rename_i b
    obtain ⟨h1, h2⟩ := plainBody_split _ _ _ _ h
    refine ⟨h1, ?_⟩
    cases r with
    | nil => cases h2
    | cons x r =>
      simp only [List.head?_cons, Option.some.injEq] at h2
      exact ⟨r, by rw [h2]; rfl⟩
  · obtain ⟨h1, h2⟩ := rawBody_split _ _ _ _ h
    exact ⟨h1, isPrefixOf_split h2⟩

theorem stringBody_local {q c r r' : List Byte} (hq : q ≠ [])
    (h : stringBody q (c ++ (closeText q ++ r)) = some (c, closeText q ++ r)) :
    stringBody q (c ++ (closeText q ++ r')) = some (c, closeText q ++ r') := by
  unfold stringBody at h ⊢
  split at h
  · exact plainBody_local _ _ _ _ h
  · exact rawBody_local _ _ _ h (closeText_ne hq)

theorem stringBody_close {q r : List Byte} (hq : q ≠ []) :
    stringBody q (closeText q ++ r) = some ([], closeText q ++ r) := by
  unfold stringBody
  split
  · rename_i b
    cases r with
    | nil => simp [closeText, plainBody]
    | cons d r => simp [closeText, plainBody]
  · rename_i q _ _ _
    have := closeText_ne hq
    cases hc : closeText q with
    | nil => exact absurd hc this
    | cons a w =>
      rw [List.cons_append, rawBody, if_pos]
      rw [List.isPrefixOf_iff_prefix]
      exact ⟨r, rfl⟩

/-- The token `t` inside of the string that starts with `q`. -/
def InString (q : List Byte) (t : Tok) : Prop :=
  (t.kind = .stringClose ∧ t.text = closeText q) ∨
  (t.kind = .stringContent ∧ t.text ≠ [] ∧
    ∀ r, stringBody q (t.text ++ (closeText q ++ r)) = some (t.text, closeText q ++ r))

/-- Inside of strings: what the next token is. -/
theorem nextString_iff {q : List Byte} (hq : q ≠ []) (bs : List Byte) (t : Tok) (rest : List Byte) :
    nextString q bs = some (t, rest) ↔
      bs = t.text ++ rest ∧ InString q t ∧
        (t.kind = .stringContent → ∃ r, rest = closeText q ++ r) := by
  constructor
  · intro h
    unfold nextString at h
    split at h
    · cases h
    · rename_i r hb
      cases h
      obtain ⟨h1, r', h2⟩ := stringBody_split hb
      rw [List.nil_append] at h1
      refine ⟨?_, .inl ⟨rfl, rfl⟩, (fun h => by cases h)⟩
      rw [h1, h2, List.drop_left]
    · rename_i c r hne hb
      cases h
      obtain ⟨h1, r', h2⟩ := stringBody_split hb
      refine ⟨h1, .inr ⟨rfl, (fun h => hne h), ?_⟩, (fun _ => ⟨r', h2⟩)⟩
      intro r''
      rw [h1, h2] at hb
      exact stringBody_local hq hb
  · rintro ⟨rfl, ⟨h1, h2⟩ | ⟨h1, h2, h3⟩, h4⟩
    · obtain ⟨k, text⟩ := t
      simp only at h1 h2
      subst h1 h2
      unfold nextString
      rw [stringBody_close hq]
      simp
    · obtain ⟨k, text⟩ := t
      simp only at h1 h2 h3 h4
      subst h1
      obtain ⟨r, rfl⟩ := h4 rfl
      unfold nextString
      rw [h3 r]
      cases text with
      | nil => exact absurd rfl h2
      | cons a w => rfl

/-! ## Tokens in their context -/

/-- `t` can be the next token. -/
def Fine (st : List Tok) (t : Tok) : Prop :=
  match openString st with
  | some q => InString q t
  | none => ∃ s, finish (openTwo st) t.text = some s ∧ s.kind t.text = some t.kind

/-- `t` ends before `rest`. -/
def Stops (st : List Tok) (t : Tok) (rest : List Byte) : Prop :=
  match openString st with
  | some q => t.kind = .stringContent → ∃ r, rest = closeText q ++ r
  | none => ∀ s, finish (openTwo st) t.text = some s → s.stops rest

/-- Open strings start with something. -/
def StackOk (st : List Tok) : Prop := ∀ q, openString st = some q → q ≠ []

theorem nextTok_iff {st : List Tok} (hst : StackOk st) (bs : List Byte) (t : Tok)
    (rest : List Byte) :
    nextTok st bs = some (t, rest) ↔ bs = t.text ++ rest ∧ Fine st t ∧ Stops st t rest := by
  unfold nextTok Fine Stops
  cases h : openString st with
  | some q =>
    simp only
    rw [nextString_iff (hst q h)]
  | none =>
    simp only
    rw [nextCode_iff]
    constructor
    · rintro ⟨h1, s, h2, h3, h4⟩
      refine ⟨h1, ⟨s, h2, h3⟩, ?_⟩
      intro s' h'
      rw [h2] at h'
      cases h'
      exact h4
    · rintro ⟨h1, ⟨s, h2, h3⟩, h4⟩
      exact ⟨h1, s, h2, h3, h4 s h2⟩

theorem Fine.ne {st : List Tok} (hst : StackOk st) {t : Tok} (h : Fine st t) : t.text ≠ [] := by
  unfold Fine at h
  split at h
  · rename_i q hq
    rcases h with ⟨_, h⟩ | ⟨_, h, _⟩
    · rw [h]
      exact closeText_ne (hst q hq)
    · exact h
  · obtain ⟨s, h, _⟩ := h
    intro h0
    rw [h0] at h
    cases h

end Verif.Format
