import Verif.Lemmas.ParsedLists
import Verif.Lemmas.StableFile
import Verif.Spec.Stable
import Verif.Model.Pipeline

/-! # What the parser finds in a printed text -/

namespace Verif.Whole
open Verif.Syntax Verif.Format

/-- Bytes between tokens, comments aside. -/
def Void (b : Byte) : Prop := b = 10 ∨ b = 59 ∨ isBlank b = true

/-- No element is a comment. -/
def Mute (es : List El) : Prop := ∀ e ∈ es, ∀ t, e ≠ .comment t

/-- The bytes between the tokens; `acc`: those before. -/
def cuts : List Byte → List El → List (List Byte)
  | acc, [] => [acc]
  | acc, .tok _ :: es => acc :: cuts [] es
  | acc, e :: es => cuts (acc ++ render [e]) es

theorem cuts_noTok {r : List El} : ∀ {pre : List El} (acc : List Byte), NoTok pre →
    cuts acc (pre ++ r) = cuts (acc ++ render pre) r
  | [], acc, _ => by simp [render]
  | e :: pre, acc, h => by
    have hr : render (e :: pre) = render [e] ++ render pre := by
      rw [← render_append]; rfl
    cases e with
    | tok t => cases h
    | _ =>
      rw [List.cons_append, cuts, cuts_noTok (pre := pre) _ h, hr, List.append_assoc]
      all_goals nofun

theorem split_tok {t : Tok} {ts : List Tok} : ∀ {es : List El}, printedToks es = t :: ts →
    ∃ pre r, es = pre ++ .tok t :: r ∧ NoTok pre ∧ printedToks r = ts
  | [], h => by cases h
  | e :: es, h => by
    cases e with
    | tok u =>
      simp only [printedToks, List.cons.injEq] at h
      obtain ⟨rfl, h⟩ := h
      exact ⟨[], es, rfl, rfl, h⟩
    | _ =>
      obtain ⟨pre, r, h1, h2, h3⟩ := split_tok (es := es) h
      subst h1
      exact ⟨_, r, (List.cons_append (as := pre)).symm, h2, h3⟩

theorem parted_split {t : Tok} {r : List El} {st : List Tok} : ∀ {pre : List El}, NoTok pre →
    Parted st (pre ++ .tok t :: r) → Fine st t ∧ Parted (openAfter st t) r
  | [], _, h => ⟨h.1, h.2.2⟩
  | e :: pre, hn, h => by
    cases e with
    | tok t => cases hn
    | _ => exact parted_split (pre := pre) hn h

theorem unbroken_split {t : Tok} {r : List El} : ∀ {pre : List El} {b : Bool}, NoTok pre →
    Verif.Format.Unbroken b (pre ++ .tok t :: r) → (b = true → pre = []) ∧ Verif.Format.Unbroken (holds t) r
  | [], _, _, h => ⟨fun _ => rfl, h⟩
  | e :: pre, b, hn, h => by
    cases e with
    | tok t => cases hn
    | _ => exact ⟨fun hb => (by rw [h.1] at hb; cases hb), (unbroken_split (pre := pre) hn h.2).2⟩

theorem mute_void : ∀ {es : List El}, NoTok es → (∀ e ∈ es, Trivial e) → Mute es → ∀ b ∈ render es, Void b
  | [], _, _, _, b, hb => by cases hb
  | e :: es, hn, ht, hm, b, hb => by
    have hr : render (e :: es) = render [e] ++ render es := by
      rw [← render_append]; rfl
    rw [hr] at hb
    have ht1 := ht e (by simp)
    have hn' : NoTok es := by cases e <;> first | exact hn | cases hn
    rcases List.mem_append.1 hb with hb | hb
    · cases e with
      | tok t => cases hn
      | comment t => exact absurd rfl (hm _ (by simp) t)
      | blank bs =>
        have hb : b ∈ bs ++ [] := hb
        rw [List.append_nil] at hb
        rcases ht1 b hb with h | h
        · exact .inr (.inr h)
        · exact .inr (.inl h)
      | rnl =>
        have hb : b ∈ [10] := hb
        exact .inl (by simpa using hb)
      | suffix => exact ht1.elim
      | space => exact ht1.elim
      | nl => exact ht1.elim
    · exact mute_void hn' (fun e he => ht e (by simp [he])) (fun e he => hm e (by simp [he])) b hb

theorem mute_or : ∀ (es : List El), Mute es ∨ ∃ a t b, es = a ++ .comment t :: b ∧ Mute a
  | [] => .inl nofun
  | e :: es => by
    by_cases he : ∃ t, e = .comment t
    · obtain ⟨t, rfl⟩ := he
      exact .inr ⟨[], t, es, rfl, nofun⟩
    · have he' : ∀ t, e ≠ .comment t := fun t h => he ⟨t, h⟩
      rcases mute_or es with h | ⟨a, t, b, rfl, h⟩
      · refine .inl fun e' h' => ?_
        rcases List.mem_cons.1 h' with rfl | h'
        · exact he'
        · exact h e' h'
      · refine .inr ⟨e :: a, t, b, rfl, fun e' h' => ?_⟩
        rcases List.mem_cons.1 h' with rfl | h'
        · exact he'
        · exact h e' h'

/-- The first place where something other than `Void` comes is unique. -/
theorem void_unique {v w : Byte} {r r' : List Byte} (hv : ¬ Void v) (hw : ¬ Void w) :
    ∀ {a b : List Byte}, (∀ c ∈ a, Void c) → (∀ c ∈ b, Void c) → a ++ v :: r = b ++ w :: r' → a = b ∧ v = w
  | [], [], _, _, h => by simp at h; exact ⟨rfl, h.1⟩
  | [], c :: b, _, hb, h => by
    simp at h
    exact absurd (h.1 ▸ hb c (by simp)) hv
  | c :: a, [], ha, _, h => by
    simp at h
    exact absurd (h.1 ▸ ha c (by simp)) hw
  | c :: a, d :: b, ha, hb, h => by
    simp only [List.cons_append, List.cons.injEq] at h
    obtain ⟨h1, h2⟩ := void_unique hv hw (fun c hc => ha c (by simp [hc])) (fun c hc => hb c (by simp [hc])) h.2
    exact ⟨by rw [h.1, h1], h2⟩

theorem not_void_35 : ¬ Void 35 := by unfold Void; decide

/-- Tokens begin with something else. -/
theorem fine_head {st : List Tok} {t : Tok} (hs : openString st = none) (h : Fine st t) :
    ∃ b r, t.text = b :: r ∧ ¬ Void b ∧ b ≠ 35 := by
  unfold Fine at h
  rw [hs] at h
  obtain ⟨s, h1, -⟩ := h
  cases ht : t.text with
  | nil => rw [ht] at h1; cases h1
  | cons b r =>
    rw [ht] at h1
    have key : start (openTwo st) b ≠ none := by
      intro h0
      simp [finish, h0] at h1
    refine ⟨b, r, rfl, fun hv => ?_, fun hb => key (start_blank (.inr (.inr (.inr hb))))⟩
    rcases hv with h | h | h
    · exact key (start_blank (.inl h))
    · exact key (start_blank (.inr (.inl h)))
    · exact key (start_blank (.inr (.inr (.inl h))))

theorem comment_render {t : List Byte} {a b : List El} (h : Trivial (.comment t)) :
    ∃ r, render (a ++ .comment t :: b) = render a ++ 35 :: r := by
  obtain ⟨r, rfl, -⟩ := h
  exact ⟨r ++ render b, by rw [render_append]; rfl⟩

/-- Two ways to cut a text into the same tokens and what is in between are the same, if one of them has
no comments. -/
theorem same_cuts : ∀ (ts : List Tok) (st : List Tok) (e1 e2 : List El), Stack st →
    printedToks e1 = ts → printedToks e2 = ts → render e1 = render e2 →
    (∀ e ∈ e1, Trivial e) → (∀ e ∈ e2, Trivial e) → Mute e2 →
    Parted st e1 → Parted st e2 → Verif.Format.Unbroken (openString st).isSome e1 →
    Verif.Format.Unbroken (openString st).isSome e2 → Mute e1 ∧ cuts [] e1 = cuts [] e2
  | [], st, e1, e2, _, h1, h2, hr, t1, t2, m2, _, _, _, _ => by
    have hc1 := cuts_noTok (r := []) [] h1
    have hc2 := cuts_noTok (r := []) [] h2
    rw [List.append_nil] at hc1 hc2
    refine ⟨?_, by rw [hc1, hc2, hr]⟩
    rcases mute_or e1 with h | ⟨a, t, b, rfl, -⟩
    · exact h
    · obtain ⟨r, h⟩ := comment_render (a := a) (b := b) (t1 (.comment t) (by simp))
      have := mute_void h2 t2 m2 35 (by rw [← hr, h]; simp)
      exact absurd this not_void_35
  | t :: ts, st, e1, e2, hst, h1, h2, hr, t1, t2, m2, p1, p2, u1, u2 => by
    obtain ⟨a1, r1, rfl, n1, h1⟩ := split_tok h1
    obtain ⟨a2, r2, rfl, n2, h2⟩ := split_tok h2
    obtain ⟨f1, p1⟩ := parted_split n1 p1
    obtain ⟨-, p2⟩ := parted_split n2 p2
    obtain ⟨b1, u1⟩ := unbroken_split n1 u1
    obtain ⟨b2, u2⟩ := unbroken_split n2 u2
    obtain ⟨hst', ho⟩ := stack_after hst f1
    rw [render_append, render_append] at hr
    have hr : render a1 ++ (t.text ++ render r1) = render a2 ++ (t.text ++ render r2) := hr
    have key : Mute a1 ∧ render a1 = render a2 := by
      cases hs : openString st with
      | some q =>
        rw [hs] at b1 b2
        rw [b1 rfl, b2 rfl]
        exact ⟨nofun, rfl⟩
      | none =>
        obtain ⟨b, r, hb, hv, h35⟩ := fine_head hs f1
        rw [hb] at hr
        have ha1 : ∀ e ∈ a1, Trivial e := fun e he => t1 e (by simp [he])
        have hv2 := mute_void n2 (fun e he => t2 e (by simp [he])) (fun e he => m2 e (by simp [he]))
        rcases mute_or a1 with h | ⟨a, c, d, rfl, ha⟩
        · exact ⟨h, (void_unique hv hv (mute_void n1 ha1 h) hv2 hr).1⟩
        · obtain ⟨r', h⟩ := comment_render (a := a) (b := d) (ha1 (.comment c) (by simp))
          rw [h, List.append_assoc] at hr
          have hn : NoTok a := by
            unfold NoTok at n1 ⊢
            rw [printedToks_append, List.append_eq_nil_iff] at n1
            exact n1.1
          have := (void_unique not_void_35 hv (mute_void hn (fun e he => ha1 e (by simp [he])) ha) hv2 hr).2
          exact absurd this.symm h35
    have hr' : render r1 = render r2 := by
      rw [key.2] at hr
      exact List.append_cancel_left (List.append_cancel_left hr)
    obtain ⟨m1, hc⟩ := same_cuts ts _ r1 r2 hst' h1 h2 hr' (fun e he => t1 e (by simp [he]))
      (fun e he => t2 e (by simp [he])) (fun e he => m2 e (by simp [he])) p1 p2 (by rw [ho]; exact u1)
      (by rw [ho]; exact u2)
    refine ⟨fun e he => ?_, ?_⟩
    · simp only [List.mem_append, List.mem_cons] at he
      rcases he with he | rfl | he
      · exact key.1 e he
      · nofun
      · exact m1 e he
    · rw [cuts_noTok _ n1, cuts_noTok _ n2, cuts, cuts, key.2, hc]

/-- Line feeds are counted in the bytes between tokens. -/
theorem lineFeeds_cuts : ∀ (es : List El) (acc : List Byte), (∀ e ∈ es, Trivial e) → Mute es →
    lineFeeds (acc.count 10) es = List.zip ((cuts acc es).map (List.count 10)) (printedToks es)
  | [], _, _, _ => by simp [lineFeeds, printedToks]
  | e :: es, acc, ht, hm => by
    have ht' : ∀ e ∈ es, Trivial e := fun e he => ht e (by simp [he])
    have hm' : Mute es := fun e he => hm e (by simp [he])
    have h1 := ht e (by simp)
    cases e with
    | tok t =>
      have := lineFeeds_cuts es [] ht' hm'
      simp only [List.count_nil] at this
      rw [lineFeeds, this, cuts, printedToks, List.map_cons, List.zip_cons_cons]
    | comment t => exact absurd rfl (hm _ (by simp) t)
    | blank bs =>
      have hb : bs.count 10 = 0 := by
        refine List.count_eq_zero.2 fun hb => ?_
        rcases h1 10 hb with h | h <;> revert h <;> decide
      have := lineFeeds_cuts es (acc ++ render [.blank bs]) ht' hm'
      have hr : render [El.blank bs] = bs := by simp [render]
      rw [hr, List.count_append, hb, Nat.add_zero] at this
      rw [lineFeeds, this, cuts, hr, printedToks]
      all_goals nofun
    | rnl =>
      have := lineFeeds_cuts es (acc ++ render [.rnl]) ht' hm'
      have hr : render [El.rnl] = [10] := rfl
      rw [hr, List.count_append] at this
      rw [lineFeeds, cuts, hr, printedToks, ← this]
      · rfl
      all_goals nofun
    | suffix => exact h1.elim
    | space => exact h1.elim
    | nl => exact h1.elim

theorem lineFeeds_respelled {a b : List El} (h : Respelled a b) : ∀ n, lineFeeds n a = lineFeeds n b := by
  induction h with
  | nil => intro n; rfl
  | same e _ ih => intro n; cases e <;> simp only [lineFeeds, ih]
  | blank _ _ _ _ _ ih => intro n; simp only [lineFeeds, ih]

theorem mute_respelled {a b : List El} (h : Respelled a b) (ha : Mute a) : Mute b := by
  induction h with
  | nil => nofun
  | same e _ ih =>
    intro e' he
    rcases List.mem_cons.1 he with rfl | he
    · exact ha _ (by simp)
    · exact ih (fun e he => ha e (by simp [he])) e' he
  | blank _ _ _ _ _ ih =>
    intro e' he
    rcases List.mem_cons.1 he with rfl | he
    · nofun
    · exact ih (fun e he => ha e (by simp [he])) e' he

theorem lineFeeds_pieces {r : List El} : ∀ (ps : List Piece) (n : Nat),
    lineFeeds n (ps.map pieceEl ++ r) = lineFeeds (n + (ps.filter (fun p => p.kind == .newline)).length) r
  | [], _ => rfl
  | q :: ps, n => by
    rw [List.map_cons, List.cons_append]
    cases hk : q.kind with
    | newline =>
      rw [show pieceEl q = .rnl by simp [pieceEl, hk], lineFeeds, lineFeeds_pieces]
      simp [hk, Nat.add_assoc, Nat.add_comm]
    | whitespace =>
      rw [show pieceEl q = .blank q.text by simp [pieceEl, hk], lineFeeds, lineFeeds_pieces]
      · simp [hk]
      all_goals nofun
    | comment =>
      rw [show pieceEl q = .comment q.text by simp [pieceEl, hk], lineFeeds, lineFeeds_pieces]
      · simp [hk]
      all_goals nofun

theorem lineFeeds_raw {eof : Token} : ∀ (ts : List Token), (∀ t ∈ ts, ∀ q ∈ t.trailing, q.kind ≠ .newline) →
    (∀ t ∈ ts, ∀ q ∈ t.leading, q.kind ≠ .comment) →
    lineFeeds 0 (rawFile ts eof) = ts.map (fun t => (linesBeforeToken t, outTok t))
  | [], _, _ => by
    rw [rawFile_nil, ← List.append_nil (List.map _ _), lineFeeds_pieces]
    rfl
  | t :: ts, h1, h2 => by
    have hl : linesBeforeToken t = (t.leading.filter (fun p => p.kind == .newline)).length := by
      unfold linesBeforeToken
      congr 2
      have : ∀ l : List Piece, (∀ q ∈ l, q.kind ≠ .comment) → l.takeWhile (fun p => p.kind != .comment) = l := by
        intro l hl
        induction l with
        | nil => rfl
        | cons a l ih =>
          have := hl a (by simp)
          rw [List.takeWhile_cons, ih fun q hq => hl q (by simp [hq])]
          simp [this]
      exact this _ (h2 t (by simp))
    have h0 : (t.trailing.filter (fun p => p.kind == .newline)).length = 0 := by
      rw [List.length_eq_zero_iff, List.filter_eq_nil_iff]
      intro q hq
      simpa using h1 t (by simp) q hq
    rw [rawFile_tok, lineFeeds_pieces, lineFeeds, lineFeeds_pieces, h0, Nat.add_zero, Nat.zero_add, ← hl,
      lineFeeds_raw ts (fun t ht => h1 t (by simp [ht])) (fun t ht => h2 t (by simp [ht]))]
    rfl

variable {text : List Byte} {root : Verif.Parser.TsNode} {p : Exprs} {y : Root}

/-- What the parser finds in a printed text without comments. -/
theorem rereads {els out : List El} (hm : Mute els) (hr : Respelled els out)
    (hg : Glued none out ∧ NoStr (glueEnd none out)) (ht : ∀ e ∈ out, Trivial e) (hk : Tracks [] (printedToks out))
    (hs : (seen .fresh out).map Prod.snd = printedToks out) (ht' : lf text = render out)
    (ha : Agrees text root p) (hp : readText (lf text) = some p.bare) (hl : LineEnds text root)
    (hy : Parsed text root p y) :
    Rereads els y := by
  obtain ⟨q1, -, q3, q4, q5⟩ := parsed_program ha hp hl hy
  rw [ht'] at q1
  have hseen : (seen .fresh (rawFile y.es.tokens y.eof)).map Prod.snd = y.es.tokens.map outTok :=
    (fits_toks q5).trans (shapes_toks _ _ _)
  obtain ⟨hpa, hu⟩ := spelled_parted q3 hseen
  have hlex := lexText_glued hg.1 hg.2 ht hk hs
  have heq : seen .fresh (rawFile y.es.tokens y.eof) = seen .fresh out := by
    have h1 := q3.lexed
    rw [q1, hlex] at h1
    exact (Option.some.inj h1).symm
  have htoks : printedToks out = y.es.tokens.map outTok := by rw [← hs, ← heq, hseen]
  obtain ⟨m1, hc⟩ := same_cuts _ [] (rawFile y.es.tokens y.eof) out Stack.nil (printedToks_rawFile _ _) htoks q1
    (rawFile_trivial _ _ q3.trivia) ht (mute_respelled hr hm) hpa (tidy_glued _ [] none Stack.nil hg.1 hk ht)
    hu (unbroken_glued _ none hg.1 hg.2)
  have hnc : ∀ t ∈ y.es.tokens, ∀ q ∈ t.leading ++ t.trailing, q.kind ≠ .comment := by
    intro t ht q hq hk
    refine m1 (.comment q.text) ?_ q.text rfl
    unfold rawFile
    refine List.mem_append_left _ (List.mem_flatMap.2 ⟨t, ht, ?_⟩)
    have hq' : pieceEl q = .comment q.text := by simp [pieceEl, hk]
    rcases List.mem_append.1 hq with hq | hq
    · exact List.mem_append_left _ (List.mem_append_left _ (hq' ▸ List.mem_map_of_mem hq))
    · exact List.mem_append_right _ (hq' ▸ List.mem_map_of_mem hq)
  have hne : ∀ q ∈ y.eof.leading, q.kind ≠ .comment := by
    intro q hq hk
    refine m1 (.comment q.text) ?_ q.text rfl
    have hq' : pieceEl q = .comment q.text := by simp [pieceEl, hk]
    exact List.mem_append_right _ (hq' ▸ List.mem_map_of_mem hq)
  have hfeeds : lineFeeds 0 (rawFile y.es.tokens y.eof) = lineFeeds 0 out := by
    have h1 := lineFeeds_cuts _ [] (rawFile_trivial _ _ q3.trivia) m1
    have h2 := lineFeeds_cuts _ [] ht (mute_respelled hr hm)
    simp only [List.count_nil] at h1 h2
    rw [h1, h2, hc, printedToks_rawFile, htoks]
  refine ⟨?_, ?_, q4, ?_⟩
  · unfold Root.sourceComments commentTexts
    rw [List.map_eq_nil_iff, List.filter_eq_nil_iff]
    intro q hq
    simp only [beq_iff_eq]
    rcases List.mem_append.1 hq with hq | hq
    · obtain ⟨t, ht, hq⟩ := List.mem_flatMap.1 hq
      exact hnc t ht q hq
    · exact hne q hq
  · rw [lineFeeds_respelled hr, ← hfeeds, lineFeeds_raw _
      (fun t ht => hy.lines t (List.mem_append_left _ ht))
      (fun t ht q hq => hnc t ht q (List.mem_append_left _ hq))]
  · rw [respelled_seen hr, ← heq]; exact q5

/-! ## Printed text without comments -/

/-- Tokens, line feeds and blanks. -/
def Printed (e : El) : Prop :=
  (∃ t, e = .tok t) ∨ e = .rnl ∨ ∃ bs, e = .blank bs ∧ bs ≠ [] ∧ ∀ b ∈ bs, b = 9 ∨ b = 32

theorem printed_text {s : PState} {e : El} (he : Printed e) : ∀ a ∈ (printText s e).1, Printed a := by
  intro a ha
  simp only [printText, List.mem_append, List.mem_singleton] at ha
  rcases ha with (ha | ha) | rfl
  · split at ha
    · cases ha
    · rename_i hi
      rw [List.mem_singleton] at ha
      refine .inr (.inr ⟨_, ha, by simpa using hi, fun b hb => .inl (List.eq_of_mem_replicate hb)⟩)
  · split at ha
    · rw [List.mem_singleton] at ha
      exact .inr (.inr ⟨_, ha, nofun, fun b hb => .inr (List.mem_singleton.1 hb)⟩)
    · cases ha
  · exact he

theorem printed_nl {s : PState} {e : Bool} {i : Nat} : ∀ a ∈ (printNl s e i).1, Printed a := by
  intro a ha
  simp only [printNl, List.mem_append] at ha
  rcases ha with ha | ha <;> split at ha <;> first | cases ha; done | exact .inr (.inl (List.mem_singleton.1 ha))

theorem printed_els : ∀ (x : List El) (s : PState), s.sfx = [] → (∀ e ∈ x, e.clean = true) →
    ∀ a ∈ printEls s x, Printed a
  | [], s, hs, _, a, ha => by
    rw [printEls, flush, hs, printSuffixes] at ha
    cases ha
  | e :: x, s, hs, hx, a, ha => by
    have hx' : ∀ e ∈ x, e.clean = true := fun a ha => hx a (by simp [ha])
    have he := hx e (by simp)
    rw [printEls] at ha
    rcases List.mem_append.1 ha with ha | ha
    · cases e with
      | tok t => exact printed_text (.inl ⟨t, rfl⟩) a ha
      | rnl => exact printed_text (.inr (.inl rfl)) a ha
      | space => cases ha
      | nl e i =>
        simp only [printEl, flush, hs, printSuffixes, List.nil_append] at ha
        exact printed_nl a ha
      | _ => cases he
    · cases e with
      | tok t => exact printed_els x _ (by exact hs) hx' a ha
      | rnl => exact printed_els x _ (by exact hs) hx' a ha
      | space => exact printed_els x _ (by exact hs) hx' a ha
      | nl e i =>
        simp only [printEl, flush, hs, printSuffixes] at ha
        exact printed_els x _ rfl hx' a ha
      | _ => cases he

theorem printed_mute {es : List El} (h : ∀ e ∈ es, Printed e) : Mute es := by
  intro e he t ht
  rcases h e he with ⟨u, rfl⟩ | rfl | ⟨bs, rfl, -⟩ <;> cases ht

theorem isBlank_unit {b : Byte} (h : b = 9 ∨ b = 32) : isBlank b = true := by
  rcases h with rfl | rfl <;> decide

theorem reindent_blank {unit bs : List Byte} (hu : unit ≠ []) (hu' : ∀ b ∈ unit, b = 9 ∨ b = 32) (h0 : bs ≠ [])
    (h : ∀ b ∈ bs, b = 9 ∨ b = 32) : (bs.flatMap fun b => if b = 9 then unit else [b]) ≠ [] ∧
      ∀ b ∈ (bs.flatMap fun b => if b = 9 then unit else [b]), b = 9 ∨ b = 32 := by
  constructor
  · cases bs with
    | nil => exact absurd rfl h0
    | cons b bs =>
      rw [List.flatMap_cons]
      split <;> simp [hu]
  · intro b hb
    obtain ⟨c, hc, hb⟩ := List.mem_flatMap.1 hb
    split at hb
    · exact hu' b hb
    · rw [List.mem_singleton.1 hb]; exact h c hc

/-- Blanks are tabs and spaces. -/
def Tabbed (e : El) : Prop := ∀ bs, e = .blank bs → bs ≠ [] ∧ ∀ b ∈ bs, b = 9 ∨ b = 32

theorem respelled_reindent {unit : List Byte} (hu : unit ≠ []) (hu' : ∀ b ∈ unit, b = 9 ∨ b = 32) :
    ∀ {es : List El}, (∀ e ∈ es, Tabbed e) → Respelled es (reindent unit es)
  | [], _ => .nil
  | e :: es, h => by
    have ih := respelled_reindent hu hu' fun e he => h e (List.mem_cons_of_mem _ he)
    have he := h e (by simp)
    cases e with
    | blank bs =>
      obtain ⟨h0, hb⟩ := he bs rfl
      obtain ⟨h1, h2⟩ := reindent_blank hu hu' h0 hb
      exact .blank h0 h1 (List.all_eq_true.2 fun b hb' => isBlank_unit (hb b hb'))
        (List.all_eq_true.2 fun b hb' => isBlank_unit (h2 b hb')) ih
    | _ => exact .same _ ih

theorem respelled_append {a b c d : List El} (h : Respelled a b) (h' : Respelled c d) : Respelled (a ++ c) (b ++ d) := by
  induction h with
  | nil => exact h'
  | same e _ ih => exact .same e ih
  | blank h1 h2 h3 h4 _ ih => exact .blank h1 h2 h3 h4 ih

theorem tabbed_pending (s : PState) : ∀ e ∈ pendingEls s, Tabbed e := by
  intro e he
  simp only [pendingEls, List.mem_append] at he
  rcases he with he | he
  · split at he
    · cases he
    · rename_i hi
      rw [List.mem_singleton] at he
      rintro bs rfl
      cases he
      exact ⟨by simpa using hi, fun b hb => .inl (List.eq_of_mem_replicate hb)⟩
  · split at he
    · rw [List.mem_singleton] at he
      rintro bs rfl
      cases he
      exact ⟨nofun, fun b hb => .inr (List.mem_singleton.1 hb)⟩
    · cases he

theorem tabbed_text (s : PState) {e : El} (he : Tabbed e) : ∀ a ∈ (printText s e).1, Tabbed a := by
  intro a ha
  rw [printText_eq] at ha
  rcases List.mem_append.1 ha with ha | ha
  · exact tabbed_pending s a ha
  · rw [List.mem_singleton.1 ha]; exact he

theorem tabbed_nl (s : PState) (e : Bool) (i : Nat) : ∀ a ∈ (printNl s e i).1, Tabbed a := by
  intro a ha
  simp only [printNl, List.mem_append] at ha
  rcases ha with ha | ha <;> split at ha <;> first | cases ha; done | (rw [List.mem_singleton.1 ha]; nofun)

theorem tabbed_suffix (s : PState) (x : Option Bool × Nat × List Byte) : ∀ a ∈ (printSuffix s x).1, Tabbed a := by
  obtain ⟨l, i, t⟩ := x
  cases l with
  | none => exact tabbed_text _ (by intro bs h; cases h)
  | some e =>
    intro a ha
    simp only [printSuffix, List.mem_append] at ha
    rcases ha with ha | ha
    · exact tabbed_nl _ _ _ a ha
    · exact tabbed_text _ (by intro bs h; cases h) a ha

theorem tabbed_suffixes : ∀ (xs : List (Option Bool × Nat × List Byte)) (s : PState),
    ∀ a ∈ (printSuffixes s xs).1, Tabbed a
  | [], _, a, ha => by cases ha
  | x :: xs, s, a, ha => by
    simp only [printSuffixes, List.mem_append] at ha
    rcases ha with ha | ha
    · exact tabbed_suffix s x a ha
    · exact tabbed_suffixes xs _ a ha

theorem tabbed_flush (s : PState) : ∀ a ∈ (flush s).1, Tabbed a := tabbed_suffixes _ _

theorem tabbed_el (s : PState) {e : El} (he : ∀ bs, e ≠ .blank bs) : ∀ a ∈ (printEl s e).1, Tabbed a := by
  intro a ha
  cases e with
  | blank bs => exact absurd rfl (he bs)
  | suffix => cases ha
  | space => cases ha
  | nl e i =>
    simp only [printEl, List.mem_append] at ha
    rcases ha with ha | ha
    · exact tabbed_flush s a ha
    · exact tabbed_nl _ _ _ a ha
  | rnl => exact tabbed_text _ (by intro bs h; cases h) a ha
  | tok t => exact tabbed_text _ (by intro bs h; cases h) a ha
  | comment t => exact tabbed_text _ (by intro bs h; cases h) a ha

theorem respelled_refl : ∀ es : List El, Respelled es es
  | [] => .nil
  | e :: es => .same e (respelled_refl es)

/-- Other indentation. -/
theorem respelled_unit {unit : List Byte} (hu : unit ≠ []) (hu' : ∀ b ∈ unit, b = 9 ∨ b = 32) :
    ∀ (es : List El) (s : PState), Respelled (printEls s es) (printUnit unit s es)
  | [], s => by
    rw [printEls, printUnit]
    exact respelled_reindent hu hu' (tabbed_flush s)
  | e :: es, s => by
    cases e with
    | blank bs =>
      rw [printEls, printUnit]
      have h1 : (printEl s (.blank bs)).1 = pendingEls s ++ [.blank bs] := rfl
      rw [h1, List.dropLast_concat, List.append_assoc]
      exact respelled_append (respelled_reindent hu hu' (tabbed_pending s)) (.same _ (respelled_unit hu hu' es _))
    | _ =>
      rw [printEls, printUnit]
      · exact respelled_append (respelled_reindent hu hu' (tabbed_el s nofun)) (respelled_unit hu hu' es _)
      · nofun

theorem printUnit_clean {unit : List Byte} : ∀ (es : List El) (s : PState), (∀ e ∈ es, ∀ bs, e ≠ .blank bs) →
    printUnit unit s es = reindent unit (printEls s es)
  | [], s, _ => by rw [printEls, printUnit]
  | e :: es, s, h => by
    have ih := printUnit_clean (unit := unit) es (printEl s e).2 fun e he => h e (List.mem_cons_of_mem _ he)
    rw [printUnit, ih, printEls]
    · simp [reindent]
    · exact h e (by simp)

theorem reindent_no13 {unit : List Byte} (hu : unit ≠ []) (hu' : ∀ b ∈ unit, b = 9 ∨ b = 32) :
    ∀ {es : List El}, (∀ e ∈ es, Printed e) → (∀ t ∈ printedToks es, 13 ∉ t.text) → 13 ∉ render (reindent unit es)
  | [], _, _ => nofun
  | e :: es, h, ht => by
    intro hm
    have hr : render (reindent unit (e :: es)) = render (reindent unit [e]) ++ render (reindent unit es) := by
      rw [← render_append]; rfl
    rw [hr] at hm
    rcases h e (by simp) with ⟨t, rfl⟩ | rfl | ⟨bs, rfl, h0, hb⟩
    · have ih := reindent_no13 hu hu' (fun e he => h e (List.mem_cons_of_mem _ he))
        fun t' ht' => ht t' (List.mem_cons_of_mem _ ht')
      rcases List.mem_append.1 hm with hm | hm
      · have hm : 13 ∈ t.text ++ [] := hm
        exact ht t (by simp [printedToks]) (by simpa using hm)
      · exact ih hm
    · have ih := reindent_no13 hu hu' (fun e he => h e (List.mem_cons_of_mem _ he)) ht
      rcases List.mem_append.1 hm with hm | hm
      · have hm : (13 : Byte) ∈ [10] := hm
        revert hm; decide
      · exact ih hm
    · have ih := reindent_no13 hu hu' (fun e he => h e (List.mem_cons_of_mem _ he)) ht
      rcases List.mem_append.1 hm with hm | hm
      · obtain ⟨h1, h2⟩ := reindent_blank hu hu' h0 hb
        have hm : 13 ∈ (bs.flatMap fun b => if b = 9 then unit else [b]) ++ [] := hm
        rw [List.append_nil] at hm
        have := h2 13 hm
        revert this; decide
      · exact ih hm

theorem edits_no13 {st : Settings.AssignmentStyle} {a b : List Tok} (h : Edits st a b)
    (ha : ∀ t ∈ a, 13 ∉ t.text) : ∀ t ∈ b, 13 ∉ t.text := by
  induction h with
  | nil => exact ha
  | same t _ ih =>
    intro u hu
    rcases List.mem_cons.1 hu with rfl | hu
    · exact ha _ (by simp)
    · exact ih (fun t ht => ha t (by simp [ht])) u hu
  | arrow t _ _ _ ih =>
    intro u hu
    rcases List.mem_cons.1 hu with rfl | hu
    · decide
    · exact ih (fun t ht => ha t (by simp [ht])) u hu
  | equal t _ _ _ ih =>
    intro u hu
    rcases List.mem_cons.1 hu with rfl | hu
    · decide
    · exact ih (fun t ht => ha t (by simp [ht])) u hu
  | braces _ _ ih1 ih2 =>
    intro u hu
    simp only [List.mem_cons, List.mem_append] at hu
    rcases hu with rfl | hu | rfl | hu
    · decide
    · exact ih1 (fun t ht => ha t (by simp [ht])) u hu
    · decide
    · exact ih2 (fun t ht => ha t (by simp [ht])) u hu

/-- The layout of a file without comments. -/
theorem clean_root {o : Opts} {x : Root} {els : List El} (ha : x.ann = {}) (hc : x.es.comments = [])
    (ho : x.es.ordinary o = true) (hg : x.es.gram = true) (hb : ∀ t ∈ x.es.tokens, Bland t)
    (h : Prints .expanded 0 (fmtRoot o x) els) : ∀ e ∈ els, e.clean = true := by
  have hS := simple_exprs x.es hc ho (gram_calms _ hg hc) hb
  obtain ⟨x1, x2, rfl, h1, h2⟩ := ((same_root ha hc).prints _ _ _).1 h
  have hx2 : x2 = [.nl false 0] := h2
  subst hx2
  have hcl1 := clean_fmtExprs x.es {} true true hS ((prints_lays _ _ _ _ h1).2.1 rfl)
  intro e he
  rcases List.mem_append.1 he with he | he
  · exact hcl1 e he
  · cases List.mem_singleton.1 he; rfl

end Verif.Whole
