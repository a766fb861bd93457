import Verif.Spec.Respaced
import Verif.Lemmas.Parsed

/-!
# Reading a text with its comments and line breaks
-/

namespace Verif.Format
open Verif.Syntax

/-- The tokens among the parts of a text. -/
def seenOf (fresh : Bool) : List Mark → Seen
  | [] => []
  | .tok t :: ms => (fresh, t) :: seenOf false ms
  | .comment _ :: ms => seenOf fresh ms
  | .brk :: ms => seenOf true ms
  | .semi :: ms => seenOf true ms

theorem skim_seen : ∀ (n : Nat) (st : List Tok) (fresh : Bool) (bs : List Byte),
    lexFrom n st fresh bs = (skimFrom n st bs).map (seenOf fresh)
  | 0, _, _, _ => rfl
  | n + 1, st, fresh, bs => by
    rw [lexFrom.eq_def, skimFrom.eq_def]
    dsimp only
    have key : ∀ bs, (match nextTok st bs with
        | none => none
        | some (t, rest) => (lexFrom n (openAfter st t) false rest).map ((fresh, t) :: ·)) =
        ((match nextTok st bs with
        | none => none
        | some (t, rest) => (skimFrom n (openAfter st t) rest).map (.tok t :: ·)) : Option (List Mark)).map
          (seenOf fresh) := by
      intro bs
      cases nextTok st bs with
      | none => rfl
      | some p =>
        obtain ⟨t, rest⟩ := p
        simp only [skim_seen n _ false rest, Option.map_map]
        rfl
    split
    · exact key bs
    · cases bs with
      | nil => rfl
      | cons b bs =>
        dsimp only
        by_cases h10 : b = 10
        · rw [if_pos (.inl h10), if_pos h10, skim_seen n st true bs, Option.map_map]
          rfl
        · by_cases h59 : b = 59
          · rw [if_pos (.inr h59), if_neg h10, if_pos h59, skim_seen n st true bs, Option.map_map]
            rfl
          · rw [if_neg (by simp [h10, h59]), if_neg h10, if_neg h59]
            split
            · exact skim_seen n st fresh bs
            · split
              · rw [skim_seen n st fresh _, Option.map_map]
                rfl
              · exact key (b :: bs)

theorem seenOf_few : ∀ (ms : List Mark) (n : Nat) (fresh : Bool), (0 < n → fresh = true) →
    seenOf fresh (few n ms) = seenOf fresh ms
  | [], _, _, _ => rfl
  | .brk :: ms, n, fresh, h => by
    rw [few, seenOf]
    split
    · rw [seenOf]; exact seenOf_few ms _ _ (fun _ => rfl)
    · rw [seenOf_few ms n fresh h, h (by omega)]
  | .semi :: ms, n, fresh, h => by
    rw [few, seenOf, seenOf]; exact seenOf_few ms _ _ (fun _ => rfl)
  | .comment _ :: ms, n, fresh, h => by
    rw [few, seenOf, seenOf]; exact seenOf_few ms _ _ (by omega)
  | .tok _ :: ms, n, fresh, h => by
    rw [few, seenOf, seenOf, seenOf_few ms 0 false (by omega)]

/-- R reads the same program. -/
theorem SameMarks.reads {a b : List Byte} (h : SameMarks a b) : readText a = readText b := by
  have key : ∀ a, lexText a = ((skim a).map (few 0)).map (seenOf true) := fun a => by
    unfold lexText skim
    rw [skim_seen, Option.map_map]
    congr 1
    funext ms
    exact (seenOf_few ms 0 true (fun _ => rfl)).symm
  unfold readText
  rw [key, key, h]

/-- The parts of printed elements. -/
def elMarks : List El → List Mark
  | [] => []
  | .tok t :: es => .tok t :: elMarks es
  | .comment t :: es => .comment t :: elMarks es
  | .rnl :: es => .brk :: elMarks es
  | .blank bs :: es => (bs.filter (· == 59)).map (fun _ => .semi) ++ elMarks es
  | _ :: es => elMarks es

theorem skim_code {st : List Tok} (h : openString st = none) (n : Nat) (b : Byte) (bs : List Byte) :
    skimFrom (n + 1) st (b :: bs) =
      if b = 10 then (skimFrom n st bs).map (.brk :: ·)
      else if b = 59 then (skimFrom n st bs).map (.semi :: ·)
      else if isBlank b = true then skimFrom n st bs
      else if b = 35 then
        (skimFrom n st (bs.dropWhile (fun c => c != 10))).map
          (.comment (b :: bs.takeWhile (fun c => c != 10)) :: ·)
      else
        match nextTok st (b :: bs) with
        | none => none
        | some (t, rest) => (skimFrom n (openAfter st t) rest).map (.tok t :: ·) := by
  rw [skimFrom.eq_def]
  simp only [h, Option.isSome_none, Bool.false_eq_true, if_false]
  rfl

theorem skim_blanks {st : List Tok} (hst : openString st = none) : ∀ (bs : List Byte) (n : Nat)
    (rest : List Byte), (∀ b ∈ bs, isBlank b = true ∨ b = 59) →
    skimFrom (n + bs.length) st (bs ++ rest) =
      (skimFrom n st rest).map ((bs.filter (· == 59)).map (fun _ => Mark.semi) ++ ·)
  | [], n, rest, _ => by simp
  | b :: bs, n, rest, h => by
    have ih := skim_blanks hst bs n rest (fun c hc => h c (List.mem_cons_of_mem _ hc))
    have e : n + (b :: bs).length = (n + bs.length) + 1 := rfl
    rw [e, List.cons_append, skim_code hst, ih]
    by_cases h59 : b = 59
    · subst h59
      rw [if_neg (by decide), if_pos rfl, Option.map_map]
      congr 1
    · have hb : isBlank b = true := (h b (List.mem_cons_self ..)).resolve_right h59
      have h10 : b ≠ 10 := by rintro rfl; cases hb
      rw [if_neg h10, if_neg h59, if_pos hb]
      simp [h59]

/-- A text of a tree has the parts that are in the tree. -/
theorem skim_parted : ∀ (els : List El) (st : List Tok) (fresh : Bool) (n : Nat) (S : Seen),
    (∀ e ∈ els, Trivial e) → Ended els → Unbroken (openString st).isSome els → Stack st →
    (render els).length < n → lexFrom n st fresh (render els) = some S → S.map Prod.snd = printedToks els →
    skimFrom n st (render els) = some (elMarks els)
  | [], st, _, n, _, _, _, hu, _, hn, _, _ => by
    cases n with
    | zero => simp [render] at hn
    | succ n =>
      have hs := openString_false hu
      rw [render, skimFrom.eq_def]
      simp [hs, elMarks]
  | .tok t :: es, st, fresh, n, S, hp, he, hu, hst, hn, h, hS => by
    obtain ⟨m, S', rfl, rfl, hnx, hl⟩ := lex_tok hst (by simpa only [render] using h) hS
    obtain ⟨-, h1, h2⟩ := (nextTok_iff hst.1 _ _ _).1 hnx
    obtain ⟨hst', hopen⟩ := stack_after hst h1
    have hlen : 0 < t.text.length := List.length_pos_iff.2 (h1.ne hst.1)
    have hn' : t.text.length + (render es).length < m + 1 := by
      simpa [render] using hn
    have ih := skim_parted es (openAfter st t) false m S'
      (fun e he => hp e (List.mem_cons_of_mem _ he)) he (by rw [hopen]; exact hu) hst' (by omega)
      hl (by simpa [printedToks] using hS)
    by_cases hs : (openString st).isSome = true
    · rw [render, skimFrom.eq_def]
      simp only [hs, if_true, hnx, ih]
      rfl
    · have hs' : openString st = none := openString_false (by simpa using hs)
      obtain ⟨b, r, htx, hstart⟩ := lex_head _ _ _ _ _ _ _ hs' h
      rw [render]
      rw [htx, List.cons_append] at hnx ⊢
      rw [skim_code hs', if_neg (fun h => hstart (start_blank (by simp [h]))),
        if_neg (fun h => hstart (start_blank (by simp [h]))),
        if_neg (fun h => hstart (start_blank (by simp [h]))),
        if_neg (fun h => hstart (start_blank (by simp [h])))]
      simp only [hnx, ih]
      rfl
  | .comment t :: es, st, fresh, n, S, hp, he, hu, hst, hn, h, hS => by
    obtain ⟨hu0, hu⟩ := hu
    have hs := openString_false hu0
    obtain ⟨r, rfl, hr⟩ := hp _ (List.mem_cons_self ..)
    have hn' : r.length + 1 + (render es).length < n := by
      have : (render (El.comment (35 :: r) :: es)).length = r.length + 1 + (render es).length := by
        simp [render, Nat.add_right_comm]
      omega
    cases n with
    | zero => omega
    | succ n =>
      have hd : (r ++ render es).dropWhile (fun c => c != 10) = render es := by
        rw [dropLine_append hr]
        cases hr : render es with
        | nil => rfl
        | cons b bs =>
          have := he.1 b (by rw [hr]; rfl)
          subst this
          rfl
      have hd' : (r ++ render es).takeWhile (fun c => c != 10) = r := by
        have := List.takeWhile_append_dropWhile (p := fun c : Byte => c != 10) (l := r ++ render es)
        rw [hd] at this
        exact List.append_cancel_right this
      rw [render, List.cons_append, lexFrom_code hs, if_neg (by decide), if_neg (by decide), if_pos rfl, hd] at h
      rw [render, List.cons_append, skim_code hs, if_neg (by decide), if_neg (by decide), if_neg (by decide),
        if_pos rfl, hd, hd']
      rw [skim_parted es st fresh n S (fun e he => hp e (List.mem_cons_of_mem _ he)) he.2
        (by rw [hs]; exact hu) hst (by omega) h hS]
      rfl
  | .blank bs :: es, st, fresh, n, S, hp, he, hu, hst, hn, h, hS => by
    obtain ⟨hu0, hu⟩ := hu
    have hs := openString_false hu0
    have hb : ∀ b ∈ bs, isBlank b = true ∨ b = 59 := hp _ (List.mem_cons_self ..)
    have hn' : bs.length + (render es).length < n := by
      have : (render (El.blank bs :: es)).length = bs.length + (render es).length := by
        simp [render]
      omega
    have e : n = (n - bs.length) + bs.length := by omega
    rw [render, e, lex_blanks hs _ _ _ _ hb] at h
    rw [render, e, skim_blanks hs _ _ _ hb,
      skim_parted es st _ _ S (fun e he => hp e (List.mem_cons_of_mem _ he)) he
        (by rw [hs]; exact hu) hst (by omega) h hS]
    rfl
  | .rnl :: es, st, fresh, n, S, hp, he, hu, hst, hn, h, hS => by
    obtain ⟨hu0, hu⟩ := hu
    have hs := openString_false hu0
    have hn' : 1 + (render es).length < n := by
      have : (render (El.rnl :: es)).length = 1 + (render es).length := by
        simp [render, Nat.add_comm]
      omega
    cases n with
    | zero => omega
    | succ n =>
      rw [render, lexFrom_code hs, if_pos (.inl rfl)] at h
      rw [render, skim_code hs, if_pos rfl, skim_parted es st true n S
        (fun e he => hp e (List.mem_cons_of_mem _ he)) he (by rw [hs]; exact hu) hst (by omega) h hS]
      rfl
  | .suffix .. :: es, st, fresh, n, _, hp, _, _, _, _, _, _ =>
    (hp _ (List.mem_cons_self ..)).elim
  | .space :: es, st, fresh, n, _, hp, _, _, _, _, _, _ =>
    (hp _ (List.mem_cons_self ..)).elim
  | .nl .. :: es, st, fresh, n, _, hp, _, _, _, _, _, _ =>
    (hp _ (List.mem_cons_self ..)).elim

/-! ## Trees with the same parts -/

/-- The parts besides semicolons. -/
def noSemi : List Mark → List Mark
  | [] => []
  | .semi :: ms => noSemi ms
  | .brk :: ms => .brk :: noSemi ms
  | .comment t :: ms => .comment t :: noSemi ms
  | .tok t :: ms => .tok t :: noSemi ms

theorem noSemi_few : ∀ (ms : List Mark) (n : Nat), noSemi (few n ms) = few n (noSemi ms)
  | [], _ => rfl
  | .semi :: ms, n => by rw [few, noSemi, noSemi, noSemi_few ms n]
  | .brk :: ms, n => by
    rw [few, noSemi, few]
    split
    · rw [noSemi, noSemi_few ms]
    · exact noSemi_few ms n
  | .comment t :: ms, n => by rw [few, noSemi, noSemi, few, noSemi_few ms]
  | .tok t :: ms, n => by rw [few, noSemi, noSemi, few, noSemi_few ms]

/-- The parts of trivia. -/
def pieceMarks : List Piece → List Mark
  | [] => []
  | p :: ps =>
    match p.kind with
    | .whitespace => pieceMarks ps
    | .newline => .brk :: pieceMarks ps
    | .comment => .comment p.text :: pieceMarks ps

theorem noSemi_semis (bs : List Byte) (ms : List Mark) :
    noSemi (bs.map (fun _ => .semi) ++ ms) = noSemi ms := by
  induction bs with
  | nil => rfl
  | cons b bs ih => exact ih

theorem elMarks_pieces : ∀ (ps : List Piece) (es : List El),
    noSemi (elMarks (ps.map pieceEl ++ es)) = pieceMarks ps ++ noSemi (elMarks es)
  | [], _ => rfl
  | p :: ps, es => by
    rw [List.map_cons, List.cons_append, pieceEl, pieceMarks]
    cases p.kind
    · rw [elMarks, noSemi, elMarks_pieces ps es]; rfl
    · rw [elMarks, noSemi_semis, elMarks_pieces ps es]
    · rw [elMarks, noSemi, elMarks_pieces ps es]; rfl

theorem pieceMarks_thin : ∀ (ps : List Piece) (n : Nat), pieceMarks (thin n ps) = few n (pieceMarks ps)
  | [], _ => rfl
  | p :: ps, n => by
    rw [thin, pieceMarks]
    cases hp : p.kind
    · dsimp only
      rw [few]
      split
      · rw [pieceMarks, pieceMarks_thin ps]
      · exact pieceMarks_thin ps n
    · exact pieceMarks_thin ps n
    · dsimp only
      rw [few, pieceMarks, hp, pieceMarks_thin ps]

theorem pieceMarks_inj : ∀ (ps qs : List Piece) (n m : Nat), pieceMarks (thin n ps) = pieceMarks (thin m qs) →
    thin n ps = thin m qs := by
  have key : ∀ (ps qs : List Piece), (∀ p ∈ ps, p.kind ≠ .whitespace ∧ (p.kind = .newline → p.text = [10])) →
      (∀ p ∈ qs, p.kind ≠ .whitespace ∧ (p.kind = .newline → p.text = [10])) → pieceMarks ps = pieceMarks qs →
      ps = qs := by
    intro ps
    induction ps with
    | nil =>
      intro qs _ hq h
      cases qs with
      | nil => rfl
      | cons q qs =>
        have := hq q (List.mem_cons_self ..)
        rw [pieceMarks, pieceMarks] at h
        cases hk : q.kind <;> simp_all
    | cons p ps ih =>
      intro qs hp hq h
      cases qs with
      | nil =>
        have := hp p (List.mem_cons_self ..)
        rw [pieceMarks, pieceMarks] at h
        cases hk : p.kind <;> simp_all
      | cons q qs =>
        obtain ⟨a1, a2⟩ := hp p (List.mem_cons_self ..)
        obtain ⟨b1, b2⟩ := hq q (List.mem_cons_self ..)
        have ih := ih qs (fun p h => hp p (List.mem_cons_of_mem _ h)) (fun p h => hq p (List.mem_cons_of_mem _ h))
        rw [pieceMarks, pieceMarks] at h
        obtain ⟨k, t⟩ := p
        obtain ⟨k', t'⟩ := q
        cases k <;> cases k' <;> simp_all
  have ht : ∀ (ps : List Piece) (n : Nat), ∀ p ∈ thin n ps,
      p.kind ≠ .whitespace ∧ (p.kind = .newline → p.text = [10]) := by
    intro ps
    induction ps with
    | nil => intro n p hp; cases hp
    | cons q ps ih =>
      intro n p hp
      rw [thin] at hp
      cases hk : q.kind <;> rw [hk] at hp <;> dsimp only at hp
      · split at hp
        · rcases List.mem_cons.1 hp with rfl | hp
          · exact ⟨by decide, fun _ => rfl⟩
          · exact ih _ p hp
        · exact ih _ p hp
      · exact ih _ p hp
      · rcases List.mem_cons.1 hp with rfl | hp
        · rw [hk]; exact ⟨by decide, nofun⟩
        · exact ih _ p hp
  exact fun ps qs n m h => key _ _ (ht ps n) (ht qs m) h

/-- Neither a token nor a semicolon. -/
def Mark.inGap : Mark → Bool
  | .comment _ => true
  | .brk => true
  | _ => false

theorem pieceMarks_gap : ∀ (ps : List Piece), ∀ m ∈ pieceMarks ps, m.inGap = true
  | [], m, h => by cases h
  | p :: ps, m, h => by
    rw [pieceMarks] at h
    cases hk : p.kind <;> rw [hk] at h <;> dsimp only at h
    · rcases List.mem_cons.1 h with rfl | h
      · rfl
      · exact pieceMarks_gap ps m h
    · exact pieceMarks_gap ps m h
    · rcases List.mem_cons.1 h with rfl | h
      · rfl
      · exact pieceMarks_gap ps m h

theorem few_gap : ∀ (a : List Mark) (n : Nat), (∀ m ∈ a, m.inGap = true) → ∀ m ∈ few n a, m.inGap = true
  | [], _, _, m, h => by cases h
  | .brk :: a, n, ha, m, h => by
    rw [few] at h
    split at h
    · rcases List.mem_cons.1 h with rfl | h
      · rfl
      · exact few_gap a _ (fun m h => ha m (List.mem_cons_of_mem _ h)) m h
    · exact few_gap a _ (fun m h => ha m (List.mem_cons_of_mem _ h)) m h
  | .comment t :: a, n, ha, m, h => by
    rw [few] at h
    rcases List.mem_cons.1 h with rfl | h
    · rfl
    · exact few_gap a _ (fun m h => ha m (List.mem_cons_of_mem _ h)) m h
  | .semi :: a, n, ha, m, h => by cases ha _ (List.mem_cons_self ..)
  | .tok t :: a, n, ha, m, h => by cases ha _ (List.mem_cons_self ..)

theorem few_tok : ∀ (a : List Mark) (n : Nat) (t : Tok) (b : List Mark),
    few n (a ++ .tok t :: b) = few n a ++ .tok t :: few 0 b
  | [], _, _, _ => rfl
  | .brk :: a, n, t, b => by
    rw [List.cons_append, few, few]
    split
    · rw [few_tok a]; rfl
    · rw [few_tok a]
  | .comment _ :: a, n, t, b => by rw [List.cons_append, few, few, few_tok a]; rfl
  | .semi :: a, n, t, b => by rw [List.cons_append, few, few, few_tok a]; rfl
  | .tok _ :: a, n, t, b => by rw [List.cons_append, few, few, few_tok a]; rfl

theorem split_tok {a a' b b' : List Mark} {t t' : Tok} (ha : ∀ m ∈ a, m.inGap = true) (ha' : ∀ m ∈ a', m.inGap = true)
    (h : a ++ .tok t :: b = a' ++ .tok t' :: b') : a = a' ∧ t = t' ∧ b = b' := by
  induction a generalizing a' with
  | nil =>
    cases a' with
    | nil => simpa using h
    | cons m a' =>
      simp only [List.nil_append, List.cons_append, List.cons.injEq] at h
      rw [← h.1] at ha'
      cases ha' _ (List.mem_cons_self ..)
  | cons m a ih =>
    cases a' with
    | nil =>
      simp only [List.nil_append, List.cons_append, List.cons.injEq] at h
      rw [h.1] at ha
      cases ha _ (List.mem_cons_self ..)
    | cons m' a' =>
      simp only [List.cons_append, List.cons.injEq] at h
      obtain ⟨rfl, h⟩ := h
      obtain ⟨rfl, h2⟩ := ih (fun m h => ha m (List.mem_cons_of_mem _ h)) (fun m h => ha' m (List.mem_cons_of_mem _ h)) h
      exact ⟨rfl, h2⟩

theorem few_quiet : ∀ (a b : List Mark), (∀ m ∈ a, ∃ t, m = .comment t) → few 0 (a ++ b) = a ++ few 0 b
  | [], _, _ => rfl
  | m :: a, b, h => by
    obtain ⟨t, rfl⟩ := h _ (List.mem_cons_self ..)
    rw [List.cons_append, few, few_quiet a b fun m hm => h m (List.mem_cons_of_mem _ hm)]
    rfl

theorem split_line {a a' b b' : List Mark} (ha : ∀ m ∈ a, ∃ t, m = .comment t) (ha' : ∀ m ∈ a', ∃ t, m = .comment t)
    (hb : ∀ m, b.head? = some m → m = .brk) (hb' : ∀ m, b'.head? = some m → m = .brk) (h : a ++ b = a' ++ b') :
    a = a' ∧ b = b' := by
  induction a generalizing a' with
  | nil =>
    cases a' with
    | nil => exact ⟨rfl, h⟩
    | cons m a' =>
      obtain ⟨t, rfl⟩ := ha' _ (List.mem_cons_self ..)
      rw [List.nil_append, List.cons_append] at h
      have := hb _ (by rw [h]; rfl)
      cases this
  | cons m a ih =>
    cases a' with
    | nil =>
      obtain ⟨t, rfl⟩ := ha _ (List.mem_cons_self ..)
      rw [List.nil_append, List.cons_append] at h
      have := hb' _ (by rw [← h]; rfl)
      cases this
    | cons m' a' =>
      simp only [List.cons_append, List.cons.injEq] at h
      obtain ⟨rfl, h⟩ := h
      obtain ⟨rfl, h2⟩ := ih (fun m h => ha m (List.mem_cons_of_mem _ h)) (fun m h => ha' m (List.mem_cons_of_mem _ h)) h
      exact ⟨rfl, h2⟩

/-- The trivia of tokens that come from a parser: trailing trivia without line breaks, and other comments on
lines of their own. -/
structure Laid (t : Token) : Prop where
  trailing : ∀ q ∈ t.trailing, q.kind ≠ .newline
  leading : Verif.Parser.CommentsOnOwnLine t.leading

theorem quiet_pieces {ps : List Piece} (h : ∀ q ∈ ps, q.kind ≠ .newline) : ∀ m ∈ pieceMarks ps, ∃ t, m = .comment t := by
  induction ps with
  | nil => intro m hm; cases hm
  | cons p ps ih =>
    have ih := ih fun q hq => h q (List.mem_cons_of_mem _ hq)
    have hp := h p (List.mem_cons_self ..)
    intro m hm
    rw [pieceMarks] at hm
    cases hk : p.kind <;> rw [hk] at hm <;> dsimp only at hm
    · exact absurd hk hp
    · exact ih m hm
    · rcases List.mem_cons.1 hm with rfl | hm
      · exact ⟨_, rfl⟩
      · exact ih m hm

theorem own_pieces : ∀ (ps : List Piece), Verif.Parser.CommentsOnOwnLine ps → ∀ m, (few 0 (pieceMarks ps)).head? = some m →
    m = .brk
  | [], _, m, h => by cases h
  | p :: ps, hp, m, h => by
    rw [pieceMarks] at h
    cases hk : p.kind <;> rw [hk] at h <;> dsimp only at h
    · rw [few, if_pos (by omega)] at h
      exact (Option.some.inj h).symm
    · refine own_pieces ps ?_ m h
      intro A c B e hc
      obtain ⟨n, hn, h1⟩ := hp (p :: A) c B (by rw [e]; rfl) hc
      rcases List.mem_cons.1 hn with rfl | hn
      · rw [hk] at h1; cases h1.1
      · exact ⟨n, hn, h1⟩
    · obtain ⟨n, hn, -⟩ := hp [] p ps rfl hk
      cases hn

theorem marks_last (e : Token) : noSemi (elMarks (rawFile [] e)) = pieceMarks e.leading := by
  rw [rawFile_nil, ← List.append_nil (List.map _ _), elMarks_pieces]
  simp [elMarks, noSemi]

theorem marks_first (t : Token) (ts : List Token) (e : Token) : noSemi (elMarks (rawFile (t :: ts) e)) =
    pieceMarks t.leading ++ .tok (outTok t) :: (pieceMarks t.trailing ++ noSemi (elMarks (rawFile ts e))) := by
  rw [rawFile_tok, elMarks_pieces, elMarks, noSemi, elMarks_pieces]

theorem thin_ext {t u : Token} (hk : t.kind = u.kind) (ht : t.text = u.text)
    (hl : few 0 (pieceMarks t.leading) = few 0 (pieceMarks u.leading))
    (hr : pieceMarks t.trailing = pieceMarks u.trailing) : Token.thin t = Token.thin u := by
  have h1 : thin 0 t.leading = thin 0 u.leading := pieceMarks_inj _ _ _ _ (by
    rw [pieceMarks_thin, pieceMarks_thin, hl])
  have h2 : thin 0 t.trailing = thin 0 u.trailing := pieceMarks_inj _ _ _ _ (by
    rw [pieceMarks_thin, pieceMarks_thin, hr])
  cases t; cases u
  simp only at hk ht h1 h2
  simp only [Token.thin, hk, ht, h1, h2]

/-- The parts of tokens, the first of which comes after `T`. -/
theorem same_tokens {eof eof' : Token} (h1 : eof.trailing = eof'.trailing) (hl : Laid eof) (hl' : Laid eof')
    (hk : eof.kind = eof'.kind) (ht : eof.text = eof'.text) :
    ∀ (ts ts' : List Token), (∀ t ∈ ts, Laid t ∧ (outTok t).text = t.text) →
      (∀ t ∈ ts', Laid t ∧ (outTok t).text = t.text) → ∀ (T T' : List Mark), (∀ m ∈ T, ∃ t, m = .comment t) →
      (∀ m ∈ T', ∃ t, m = .comment t) →
      few 0 (T ++ noSemi (elMarks (rawFile ts eof))) = few 0 (T' ++ noSemi (elMarks (rawFile ts' eof'))) →
      T = T' ∧ ts.map Token.thin = ts'.map Token.thin ∧ Token.thin eof = Token.thin eof' := by
  have hq : ∀ {T : List Mark}, (∀ m ∈ T, ∃ t, m = .comment t) → ∀ m ∈ T, m.inGap = true := fun hT m hm => by
    obtain ⟨t, rfl⟩ := hT m hm; rfl
  intro ts
  induction ts with
  | nil =>
    intro ts' _ h' T T' hT hT' h
    cases ts' with
    | nil =>
      rw [marks_last, marks_last, few_quiet _ _ hT, few_quiet _ _ hT'] at h
      obtain ⟨rfl, h2⟩ := split_line hT hT' (own_pieces _ hl.leading) (own_pieces _ hl'.leading) h
      exact ⟨rfl, rfl, thin_ext hk ht h2 (by rw [h1])⟩
    | cons t' ts' =>
      exfalso
      rw [marks_last, marks_first, few_quiet _ _ hT, few_quiet _ _ hT', few_tok] at h
      have : Mark.tok (outTok t') ∈ T ++ few 0 (pieceMarks eof.leading) := by rw [h]; simp
      rcases List.mem_append.1 this with h | h
      · cases hq hT _ h
      · cases few_gap _ _ (pieceMarks_gap _) _ h
  | cons t ts ih =>
    intro ts' h0 h' T T' hT hT' h
    cases ts' with
    | nil =>
      exfalso
      rw [marks_last, marks_first, few_quiet _ _ hT, few_quiet _ _ hT', few_tok] at h
      have : Mark.tok (outTok t) ∈ T' ++ few 0 (pieceMarks eof'.leading) := by rw [← h]; simp
      rcases List.mem_append.1 this with h | h
      · cases hq hT' _ h
      · cases few_gap _ _ (pieceMarks_gap _) _ h
    | cons t' ts' =>
      rw [marks_first, marks_first, few_quiet _ _ hT, few_quiet _ _ hT', few_tok, few_tok, ← List.append_assoc,
        ← List.append_assoc] at h
      obtain ⟨l1, l2⟩ := h0 t (List.mem_cons_self ..)
      obtain ⟨l1', l2'⟩ := h' t' (List.mem_cons_self ..)
      have g : ∀ (T L : List Mark), (∀ m ∈ T, ∃ t, m = .comment t) → (∀ m ∈ L, m.inGap = true) →
          ∀ m ∈ T ++ few 0 L, m.inGap = true := fun T L hT hL m hm => by
        rcases List.mem_append.1 hm with h | h
        · exact hq hT m h
        · exact few_gap _ _ hL _ h
      obtain ⟨e1, e2, e3⟩ := split_tok (g _ _ hT (pieceMarks_gap _)) (g _ _ hT' (pieceMarks_gap _)) h
      obtain ⟨rfl, e0⟩ := split_line hT hT' (own_pieces _ l1.leading) (own_pieces _ l1'.leading) e1
      obtain ⟨e4, e5, e6⟩ := ih ts' (fun t h => h0 t (List.mem_cons_of_mem _ h))
        (fun t h => h' t (List.mem_cons_of_mem _ h)) _ _ (quiet_pieces l1.trailing) (quiet_pieces l1'.trailing) e3
      refine ⟨rfl, ?_, e6⟩
      rw [List.map_cons, List.map_cons, e5]
      rw [thin_ext (congrArg Tok.kind e2) (by rw [← l2, ← l2', e2]) e0 e4]

theorem same_file {eof eof' : Token} (h1 : eof.trailing = eof'.trailing) (hk : eof.kind = eof'.kind)
    (ht : eof.text = eof'.text) (ts ts' : List Token) (ha : ∀ t ∈ ts ++ [eof], ∀ q ∈ t.trailing, q.kind ≠ .newline)
    (ha' : ∀ t ∈ ts' ++ [eof'], ∀ q ∈ t.trailing, q.kind ≠ .newline)
    (ho : ∀ t ∈ (ts ++ [eof]).tail, Verif.Parser.CommentsOnOwnLine t.leading)
    (ho' : ∀ t ∈ (ts' ++ [eof']).tail, Verif.Parser.CommentsOnOwnLine t.leading)
    (hx : ∀ t ∈ ts, (outTok t).text = t.text) (hx' : ∀ t ∈ ts', (outTok t).text = t.text)
    (h : few 0 (noSemi (elMarks (rawFile ts eof))) = few 0 (noSemi (elMarks (rawFile ts' eof')))) :
    ts.map Token.thin = ts'.map Token.thin ∧ Token.thin eof = Token.thin eof' := by
  cases ts with
  | nil =>
    cases ts' with
    | nil =>
      rw [marks_last, marks_last] at h
      exact ⟨rfl, thin_ext hk ht h (by rw [h1])⟩
    | cons t' ts' =>
      exfalso
      rw [marks_last, marks_first, few_tok] at h
      have : Mark.tok (outTok t') ∈ few 0 (pieceMarks eof.leading) := by rw [h]; simp
      cases few_gap _ _ (pieceMarks_gap _) _ this
  | cons t ts =>
    cases ts' with
    | nil =>
      exfalso
      rw [marks_last, marks_first, few_tok] at h
      have : Mark.tok (outTok t) ∈ few 0 (pieceMarks eof'.leading) := by rw [← h]; simp
      cases few_gap _ _ (pieceMarks_gap _) _ this
    | cons t' ts' =>
      rw [marks_first, marks_first, few_tok, few_tok] at h
      obtain ⟨e1, e2, e3⟩ := split_tok (few_gap _ _ (pieceMarks_gap _)) (few_gap _ _ (pieceMarks_gap _)) h
      simp only [List.cons_append, List.tail_cons] at ho ho' ha ha'
      have hl : ∀ t ∈ ts ++ [eof], Laid t := fun t h => ⟨ha t (List.mem_cons_of_mem _ h), ho t h⟩
      have hl' : ∀ t ∈ ts' ++ [eof'], Laid t := fun t h => ⟨ha' t (List.mem_cons_of_mem _ h), ho' t h⟩
      obtain ⟨e4, e5, e6⟩ := same_tokens h1 (hl eof (by simp)) (hl' eof' (by simp)) hk ht ts ts'
        (fun t h => ⟨hl t (List.mem_append_left _ h), hx t (List.mem_cons_of_mem _ h)⟩)
        (fun t h => ⟨hl' t (List.mem_append_left _ h), hx' t (List.mem_cons_of_mem _ h)⟩) _ _
        (quiet_pieces (ha t (List.mem_cons_self ..))) (quiet_pieces (ha' t' (List.mem_cons_self ..))) e3
      refine ⟨?_, e6⟩
      rw [List.map_cons, List.map_cons, e5, thin_ext (congrArg Tok.kind e2)
        (by rw [← hx t (List.mem_cons_self ..), ← hx' t' (List.mem_cons_self ..), e2]) e1 e4]

end Verif.Format
