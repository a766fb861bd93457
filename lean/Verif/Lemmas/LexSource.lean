import Verif.Lemmas.LexFormat
import Verif.Lemmas.FormatRoot
import Verif.Lemmas.FormatRaw
import Verif.Spec.Spelled

/-!
# The text of the source
-/

namespace Verif.Format
open Verif.Syntax

theorem spelled_trivial {p : Piece} (h : Piece.spelled p = true) : Trivial (pieceEl p) ∧ Plain (pieceEl p) := by
  unfold Piece.spelled at h
  cases hk : p.kind with
  | newline =>
    rw [show pieceEl p = .rnl by simp [pieceEl, hk]]
    exact ⟨trivial, trivial⟩
  | whitespace =>
    rw [show pieceEl p = .blank p.text by simp [pieceEl, hk]]
    rw [hk] at h
    have h : ∀ b ∈ p.text, isBlank b = true ∨ b = 59 := by
      intro b hb
      simpa using List.all_eq_true.1 h b hb
    exact ⟨h, h⟩
  | comment =>
    rw [show pieceEl p = .comment p.text by simp [pieceEl, hk]]
    rw [hk] at h
    simp only [Bool.and_eq_true, beq_iff_eq, Bool.not_eq_true'] at h
    obtain ⟨h1, h2⟩ := h
    have h : CommentText p.text := by
      cases ht : p.text with
      | nil => rw [ht] at h1; cases h1
      | cons b r =>
        rw [ht] at h1 h2
        simp only [List.head?_cons, Option.some.injEq] at h1
        subst h1
        refine ⟨r, rfl, ?_⟩
        intro hm
        have : (35 :: r).contains (10 : Byte) = true := by simp [hm]
        rw [h2] at this
        cases this
    exact ⟨h, h⟩

theorem rawFile_nil (eof : Token) : rawFile [] eof = eof.leading.map pieceEl := rfl

theorem rawFile_tok (t : Token) (ts : List Token) (eof : Token) : rawFile (t :: ts) eof =
    t.leading.map pieceEl ++ .tok (outTok t) :: (t.trailing.map pieceEl ++ rawFile ts eof) := by
  simp [rawFile]

theorem rawFile_trivial (ts : List Token) (eof : Token)
    (h : ∀ p ∈ ts.flatMap (fun t => t.leading ++ t.trailing) ++ eof.leading, Piece.spelled p = true) :
    ∀ e ∈ rawFile ts eof, Trivial e := by
  induction ts with
  | nil =>
    intro e he
    rw [rawFile_nil] at he
    obtain ⟨p, hp, rfl⟩ := List.mem_map.1 he
    exact (spelled_trivial (h p (by simpa using hp))).1
  | cons t ts ih =>
    intro e he
    rw [rawFile_tok] at he
    simp only [List.mem_append, List.mem_cons, List.mem_map] at he
    rcases he with ⟨p, hp, rfl⟩ | rfl | ⟨p, hp, rfl⟩ | he
    · exact (spelled_trivial (h p (by simp [hp]))).1
    · trivial
    · exact (spelled_trivial (h p (by simp [hp]))).1
    · refine ih (fun p hp => h p ?_) e he
      simp only [List.flatMap_cons, List.mem_append] at hp ⊢
      rcases hp with hp | hp
      · exact .inl (.inr hp)
      · exact .inr hp

/-! ## Strings -/

theorem unbroken_pieces {es : List El} : ∀ (ps : List Piece), Unbroken false es →
    Unbroken false (ps.map pieceEl ++ es)
  | [], h => h
  | p :: ps, h => by
    have ih := unbroken_pieces ps h
    have : ∀ e, (∀ t, e ≠ .tok t) → Unbroken false (e :: (ps.map pieceEl ++ es)) := by
      intro e he
      cases e with
      | tok t => exact absurd rfl (he t)
      | _ => exact ⟨rfl, ih⟩
    refine this _ ?_
    intro t
    unfold pieceEl
    split <;> simp

theorem unbroken_raw (eof : Token) : ∀ (ts : List Token), wholeStrings ts = true →
    ∀ b, (b = true → ∃ u us, ts = u :: us ∧ u.leading = []) → Unbroken b (rawFile ts eof)
  | [], _, b, hb => by
    cases b with
    | true =>
      obtain ⟨u, us, h, -⟩ := hb rfl
      cases h
    | false => simpa [rawFile_nil] using unbroken_pieces (es := []) eof.leading rfl
  | t :: ts, h, b, hb => by
    rw [rawFile_tok]
    simp only [wholeStrings, Bool.and_eq_true] at h
    obtain ⟨h1, h2⟩ := h
    have key : Unbroken (holds (outTok t)) (t.trailing.map pieceEl ++ rawFile ts eof) := by
      cases hh : holds (outTok t) with
      | false => exact unbroken_pieces _ (unbroken_raw eof ts h2 false (fun h => by cases h))
      | true =>
        have hk : (t.kind == .stringOpen || t.kind == .stringContent) = true := by
          simpa [holds, outTok] using hh
        rw [hk] at h1
        simp only [Bool.not_true, Bool.false_or, Bool.and_eq_true, List.isEmpty_iff] at h1
        rw [h1.1]
        refine unbroken_raw eof ts h2 true fun _ => ?_
        cases ts with
        | nil => cases h1.2
        | cons u us => exact ⟨u, us, rfl, by simpa using h1.2⟩
    have hu : ∀ b, Unbroken b (.tok (outTok t) :: (t.trailing.map pieceEl ++ rawFile ts eof)) := fun b => key
    cases b with
    | false => exact unbroken_pieces _ (hu false)
    | true =>
      obtain ⟨u, us, h, hl⟩ := hb rfl
      cases h
      rw [hl]
      exact hu true

/-! ## Tokens stay apart -/

theorem stops_at {st : List Tok} {t : Tok} (hf : Fine st t) (hh : holds t = false) {b : Byte} {r : List Byte}
    (hs : Stops st t (b :: r)) : StopsAt t b := by
  unfold Stops at hs
  cases hq : openString st with
  | some q =>
    unfold Fine at hf
    rw [hq] at hf
    refine .inl ?_
    rcases hf with ⟨hk, -⟩ | ⟨hk, -⟩
    · rw [hk]; rfl
    · simp [holds, hk] at hh
  | none =>
    rw [hq] at hs
    rcases Fine.lexeme hq hf with hw | ⟨hk, -⟩
    · by_cases h93 : ∃ r, t.text = 93 :: r
      · obtain ⟨r, hr⟩ := h93
        refine .inl ?_
        rw [hw.bracket hr]; rfl
      · refine .inr fun s hfin => ?_
        refine hs s ?_ b rfl
        rw [finish_two, hfin]
        intro b r hbr hb
        subst hb
        exact h93 ⟨r, hbr⟩
    · refine .inl ?_
      rw [hk]; rfl

theorem glued_pieces (u : Tok) : ∀ (ps : List Piece), Glued none (ps.map pieceEl ++ [.tok u])
  | [] => ⟨trivial, trivial⟩
  | p :: ps => by
    have ih := glued_pieces u ps
    have hn : NoStr none := trivial
    rw [List.map_cons, List.cons_append]
    unfold pieceEl
    split
    · exact ⟨hn, ih⟩
    · refine ⟨hn, ?_⟩
      split <;> exact ih
    · exact ⟨hn, ih⟩

theorem glue_pieces {st : List Tok} {t : Tok} (hf : Fine st t) (u : Tok) (rest : List El) :
    ∀ (ps : List Piece), Unbroken (holds t) (ps.map pieceEl ++ .tok u :: rest) →
      Stops st t (render (ps.map pieceEl ++ .tok u :: rest)) → Glued (some t) (ps.map pieceEl ++ [.tok u])
  | [], _, hs => by
    refine ⟨?_, trivial⟩
    cases hh : holds t with
    | true => exact .inl hh
    | false =>
      refine .inr fun b r hb => ?_
      refine stops_at hf hh (r := r ++ render rest) ?_
      have : render (.tok u :: rest) = b :: (r ++ render rest) := by simp [render, hb]
      rw [List.map_nil, List.nil_append, this] at hs
      exact hs
  | p :: ps, hu, hs => by
    have hg := glued_pieces u ps
    rw [List.map_cons, List.cons_append] at hu hs ⊢
    have hh : holds t = false := by
      unfold pieceEl at hu
      split at hu <;> exact hu.1
    have hu' : Unbroken false (ps.map pieceEl ++ .tok u :: rest) := by
      unfold pieceEl at hu
      split at hu <;> exact hu.2
    have hn : NoStr (some t) := hh
    cases hk : p.kind with
    | newline =>
      rw [show pieceEl p = .rnl by simp [pieceEl, hk]]
      exact ⟨hn, hg⟩
    | comment =>
      rw [show pieceEl p = .comment p.text by simp [pieceEl, hk]]
      exact ⟨hn, hg⟩
    | whitespace =>
      rw [show pieceEl p = .blank p.text by simp [pieceEl, hk]] at hs ⊢
      refine ⟨hn, ?_⟩
      split
      · rename_i h0
        refine glue_pieces hf u rest ps (by rw [hh]; exact hu') ?_
        rw [h0] at hs
        exact hs
      · exact hg

theorem parted_pieces {st : List Tok} {es : List El} : ∀ (ps : List Piece),
    Parted st (ps.map pieceEl ++ es) → Parted st es
  | [], h => h
  | p :: ps, h => by
    refine parted_pieces ps ?_
    rw [List.map_cons, List.cons_append] at h
    unfold pieceEl at h
    split at h <;> exact h

theorem linked_raw (eof : Token) : ∀ (ts : List Token) (t : Token) (st : List Tok),
    (∀ p ∈ (t :: ts).flatMap (fun t => t.leading ++ t.trailing), Piece.spelled p = true) →
    Fine st (outTok t) → Unbroken (holds (outTok t)) (t.trailing.map pieceEl ++ rawFile ts eof) →
    Stops st (outTok t) (render (t.trailing.map pieceEl ++ rawFile ts eof)) →
    Parted (openAfter st (outTok t)) (t.trailing.map pieceEl ++ rawFile ts eof) → Linked (t :: ts)
  | [], _, _, _, _, _, _, _ => trivial
  | u :: ts, t, st, hp, hf, hu, hs, hpa => by
    have hraw : t.trailing.map pieceEl ++ rawFile (u :: ts) eof = (t.trailing ++ u.leading).map pieceEl ++
        .tok (outTok u) :: (u.trailing.map pieceEl ++ rawFile ts eof) := by
      rw [rawFile_tok]
      simp
    have hpa' := parted_pieces t.trailing hpa
    rw [rawFile_tok] at hpa'
    have hpa' := parted_pieces u.leading hpa'
    obtain ⟨h1, h2, h3⟩ := hpa'
    rw [hraw] at hu hs
    have hu' : Unbroken (holds (outTok u)) (u.trailing.map pieceEl ++ rawFile ts eof) := by
      have : ∀ (ps : List Piece) (b : Bool) (es : List El), Unbroken b (ps.map pieceEl ++
          .tok (outTok u) :: es) → Unbroken (holds (outTok u)) es := by
        intro ps
        induction ps with
        | nil => intro b es h; exact h
        | cons p ps ih =>
          intro b es h
          rw [List.map_cons, List.cons_append] at h
          unfold pieceEl at h
          split at h <;> exact ih _ es h.2
      exact this _ _ _ hu
    refine ⟨⟨?_, ?_⟩, linked_raw eof ts u _ (fun p h => hp p ?_) h1 hu' h2 h3⟩
    · rw [← List.map_append]
      exact glue_pieces hf _ _ _ hu hs
    · rw [← List.map_append]
      intro e he
      obtain ⟨p, hpm, rfl⟩ := List.mem_map.1 he
      refine (spelled_trivial (hp p ?_)).2
      rcases List.mem_append.1 hpm with h | h <;> simp [h]
    · rw [List.flatMap_cons]
      exact List.mem_append_right _ h

/-- What follows about the tokens of a file. -/
theorem spelled_tokens {x : Root} (h : x.Spelled)
    (hs : (seen .fresh (rawFile x.es.tokens x.eof)).map Prod.snd = x.es.tokens.map outTok) :
    Lexed x.es.tokens ∧ Linked x.es.tokens := by
  have ht := rawFile_trivial _ _ h.trivia
  have hu : Unbroken false (rawFile x.es.tokens x.eof) := unbroken_raw _ _ h.strings false (fun h => by cases h)
  have hh : Hushed false (rawFile x.es.tokens x.eof) := by
    refine hushed_seen _ .fresh ht ?_
    rw [printedToks_rawFile, ← hs, List.length_map]
  have hp : Parted [] (rawFile x.es.tokens x.eof) :=
    tidy_lex _ false [] true _ ht hh hu Stack.nil (Nat.lt_succ_self _) (fun h => by cases h) h.lexed
  refine ⟨lexed_fines _ [] ?_, ?_⟩
  · rw [← printedToks_rawFile _ x.eof]
    exact fines_tidy _ [] hp
  · have htr := h.trivia
    generalize x.es.tokens = ts at *
    cases ts with
    | nil => trivial
    | cons t ts =>
      rw [rawFile_tok] at hp hu
      obtain ⟨h1, h2, h3⟩ := parted_pieces _ hp
      have hu' : Unbroken (holds (outTok t)) (t.trailing.map pieceEl ++ rawFile ts x.eof) := by
        have : ∀ (ps : List Piece) (b : Bool) (es : List El), Unbroken b (ps.map pieceEl ++
            .tok (outTok t) :: es) → Unbroken (holds (outTok t)) es := by
          intro ps
          induction ps with
          | nil => intro b es h; exact h
          | cons p ps ih =>
            intro b es h
            rw [List.map_cons, List.cons_append] at h
            unfold pieceEl at h
            split at h <;> exact ih _ es h.2
        exact this _ _ _ hu
      exact linked_raw x.eof ts t [] (fun p hp => htr p (List.mem_append_left _ hp)) h1 hu' h2 h3

/-! ## Text that is printed as it is -/

/-- What comes after `s` does not belong to it. -/
def Ahead (s : Option Tok) (els : List El) : Prop :=
  ∀ t, s = some t → ∃ st, Fine st t ∧ Stops st t (render els)

theorem glued_parted : ∀ (els : List El) (st : List Tok) (s : Option Tok), (∀ e ∈ els, e.isPlain = true) →
    Parted st els → Ahead s els → Unbroken (isHeld s) els → Glued s els ∧ NoStr (glueEnd s els)
  | [], _, s, _, _, _, hu => by
    refine ⟨trivial, ?_⟩
    cases s with
    | none => trivial
    | some t => exact hu
  | .tok u :: els, st, s, hp, hpa, ha, hu => by
    have ih := glued_parted els _ (some u) (fun e he => hp e (List.mem_cons_of_mem _ he)) hpa.2.2
      (fun t ht => by cases ht; exact ⟨st, hpa.1, hpa.2.1⟩) hu
    refine ⟨⟨?_, ih.1⟩, ih.2⟩
    cases s with
    | none => trivial
    | some t =>
      obtain ⟨st', hf, hs⟩ := ha t rfl
      cases hh : holds t with
      | true => exact .inl hh
      | false =>
        refine .inr fun b r hb => ?_
        refine stops_at hf hh (r := r ++ render els) ?_
        have : render (.tok u :: els) = b :: (r ++ render els) := by simp [render, hb]
        rw [this] at hs
        exact hs
  | .blank bs :: els, st, s, hp, hpa, ha, hu => by
    have hn : NoStr s := by
      cases s with
      | none => trivial
      | some t => exact hu.1
    have hp' : ∀ e ∈ els, e.isPlain = true := fun e he => hp e (List.mem_cons_of_mem _ he)
    by_cases h0 : bs = []
    · subst h0
      have hu' : Unbroken (isHeld s) els := by rw [hu.1]; exact hu.2
      have ih := glued_parted els st s hp' hpa ha hu'
      exact ⟨⟨hn, ih.1⟩, ih.2⟩
    · have ih := glued_parted els st none hp' hpa (fun t ht => by cases ht) hu.2
      refine ⟨⟨hn, ?_⟩, ?_⟩
      · rw [if_neg h0]; exact ih.1
      · show NoStr (glueEnd (if _ then _ else _) _)
        rw [if_neg h0]; exact ih.2
  | .rnl :: els, st, s, hp, hpa, ha, hu => by
    have ih := glued_parted els st none (fun e he => hp e (List.mem_cons_of_mem _ he)) hpa
      (fun t ht => by cases ht) hu.2
    refine ⟨⟨?_, ih.1⟩, ih.2⟩
    cases s with
    | none => trivial
    | some t => exact hu.1
  | .comment c :: els, st, s, hp, hpa, ha, hu => by
    have ih := glued_parted els st none (fun e he => hp e (List.mem_cons_of_mem _ he)) hpa
      (fun t ht => by cases ht) hu.2
    refine ⟨⟨?_, ih.1⟩, ih.2⟩
    cases s with
    | none => trivial
    | some t => exact hu.1
  | .suffix .. :: _, _, _, hp, _, _, _ => by cases hp _ (List.mem_cons_self ..)
  | .space :: _, _, _, hp, _, _, _ => by cases hp _ (List.mem_cons_self ..)
  | .nl .. :: _, _, _, hp, _, _, _ => by cases hp _ (List.mem_cons_self ..)

/-- As `Root.Spelled` says, before printing. -/
theorem spelled_parted {x : Root} (h : x.Spelled)
    (hs : (seen .fresh (rawFile x.es.tokens x.eof)).map Prod.snd = x.es.tokens.map outTok) :
    Parted [] (rawFile x.es.tokens x.eof) ∧ Unbroken false (rawFile x.es.tokens x.eof) := by
  have ht := rawFile_trivial _ _ h.trivia
  have hu : Unbroken false (rawFile x.es.tokens x.eof) := unbroken_raw _ _ h.strings false (fun h => by cases h)
  have hh : Hushed false (rawFile x.es.tokens x.eof) := by
    refine hushed_seen _ .fresh ht ?_
    rw [printedToks_rawFile, ← hs, List.length_map]
  exact ⟨tidy_lex _ false [] true _ ht hh hu Stack.nil (Nat.lt_succ_self _) (fun h => by cases h) h.lexed, hu⟩

/-! ## Indentation -/

theorem respelled_seen {x y : List El} (h : Respelled x y) : ∀ s, seen s x = seen s y := by
  induction h with
  | nil => intro s; rfl
  | same e _ ih => intro s; simp only [seen, ih]
  | blank ha hb haa hbb _ ih =>
    intro s
    have h59 : ∀ a : List Byte, a.all isBlank = true → a.contains 59 = false := by
      intro a ha
      cases h : a.contains 59 with
      | false => rfl
      | true =>
        have := List.all_eq_true.1 ha 59 (by simpa using h)
        exact absurd this (by decide)
    simp only [seen, RState.after, h59 _ haa, h59 _ hbb, ih]

theorem respelled_toks {x y : List El} (h : Respelled x y) : printedToks x = printedToks y := by
  induction h with
  | nil => rfl
  | same e _ ih => cases e <;> simp only [printedToks, ih]
  | blank _ _ _ _ _ ih => simp only [printedToks, ih]

theorem respelled_glued {x y : List El} (h : Respelled x y) : ∀ s, (Glued s x → Glued s y) ∧
    glueEnd s x = glueEnd s y := by
  induction h with
  | nil => intro s; exact ⟨id, rfl⟩
  | same e _ ih =>
    intro s
    cases e <;> exact ⟨fun h => ⟨h.1, (ih _).1 h.2⟩, (ih _).2⟩
  | blank ha hb _ _ _ ih =>
    intro s
    refine ⟨fun h => ⟨h.1, ?_⟩, ?_⟩
    · have := h.2
      rw [if_neg ha] at this
      rw [if_neg hb]
      exact (ih _).1 this
    · show glueEnd (if _ then _ else _) _ = glueEnd (if _ then _ else _) _
      rw [if_neg ha, if_neg hb]
      exact (ih _).2

theorem respelled_trivial {x y : List El} (h : Respelled x y) (hx : ∀ e ∈ x, Trivial e) :
    ∀ e ∈ y, Trivial e := by
  induction h with
  | nil => intro e he; cases he
  | same e _ ih =>
    intro e' he
    rcases List.mem_cons.1 he with rfl | he
    · exact hx _ (List.mem_cons_self ..)
    · exact ih (fun e he => hx e (List.mem_cons_of_mem _ he)) e' he
  | blank _ _ _ hb _ ih =>
    intro e' he
    rcases List.mem_cons.1 he with rfl | he
    · intro b hm
      exact .inl (List.all_eq_true.1 hb b hm)
    · exact ih (fun e he => hx e (List.mem_cons_of_mem _ he)) e' he

theorem Respelled.refl : ∀ (x : List El), Respelled x x
  | [] => .nil
  | e :: x => .same e (Respelled.refl x)

end Verif.Format
