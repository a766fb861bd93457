import Verif.Lemmas.ParserTrivia

/-! # Line ends in trivia -/

namespace Verif.Parser

open Syntax

variable {text : List Byte}

theorem split_between {a b : Nat} {u v : List Byte} (h1 : a ≤ b) (h2 : b ≤ text.length)
    (h : between text a b = u ++ v) : text = text.take a ++ u ++ (v ++ text.drop b) ∧
      (text.take a ++ u).length + v.length = b := by
  constructor
  · have e := between_drop text h1
    rw [h, List.append_assoc] at e
    rw [List.append_assoc, e, List.take_append_drop]
  · have := between_length (a := a) h2
    rw [h, List.length_append] at this
    simp only [List.length_append, List.length_take]
    omega

theorem apart_end (text : List Byte) : Apart text text.length := by
  intro a b h e
  have := congrArg List.length h
  simp at this
  omega

theorem lined_between (hl : Lined text) {a b : Nat} (h1 : a ≤ b) (h2 : b ≤ text.length) (hb : Apart text b) :
    Lined (between text a b) := by
  intro u v h
  obtain ⟨e1, e2⟩ := split_between h1 h2 h
  obtain ⟨c, hc⟩ := hl (text.take a ++ u) (v ++ text.drop b) (by simpa using e1)
  cases v with
  | nil =>
    exfalso
    refine hb (text.take a ++ u) c ?_ ?_
    · rw [← hc]; simpa using e1
    · simpa using e2
  | cons x v =>
    simp only [List.cons_append, List.cons.injEq] at hc
    exact ⟨v, by rw [hc.1]⟩

theorem Lined.right {u v : List Byte} (h : Lined (u ++ v)) : Lined v := by
  intro a b e
  exact h (u ++ a) b (by rw [e]; simp)

theorem Lined.tail {x : Byte} {v : List Byte} (h : Lined (x :: v)) : Lined v :=
  Lined.right (u := [x]) h

theorem Lined.no13 {bs : List Byte} (h : Lined bs) (h10 : 10 ∉ bs) : 13 ∉ bs := by
  intro hm
  obtain ⟨a, b, e⟩ := List.append_of_mem hm
  obtain ⟨c, rfl⟩ := h a b e
  exact h10 (by rw [e]; simp)

theorem crisp_pending {start stop : Nat} (h : 13 ∉ between text start stop) :
    ∀ t ∈ (if start = stop then [] else [⟨.whitespace, start, stop, false⟩] : List Trivia),
      Crisp (between text t.start t.stop) := by
  intro t ht
  split at ht
  · simp at ht
  · obtain rfl := List.mem_singleton.mp ht
    exact .inl h

theorem lead_crisp (bs : List Byte) (start stop : Nat) (hb : Lined bs)
    (hl : stop + bs.length ≤ text.length) (ht : between text stop (stop + bs.length) = bs)
    (hs : start ≤ stop) (hw : 13 ∉ between text start stop) {ts : List Trivia}
    (h : leadTrivia bs start stop = some ts) : ∀ t ∈ ts, Crisp (between text t.start t.stop) := by
  fun_induction leadTrivia bs start stop generalizing ts with
  | case1 start stop => cases h; exact crisp_pending hw
  | case2 bs start stop ih =>
    simp only [List.length_cons] at hl ht
    obtain ⟨e1, e2, e3⟩ := between_split (x := [13, 10]) (y := bs) hl ht (by omega)
    simp only [List.length_cons, List.length_nil] at e1 e2 e3
    simp only [Option.bind_eq_bind, Option.bind_eq_some_iff, Option.some.injEq] at h
    obtain ⟨r, h, rfl⟩ := h
    intro t htm
    rcases List.mem_append.mp htm with hm | hm
    · exact crisp_pending hw t hm
    · rcases List.mem_cons.mp hm with rfl | hm
      · exact .inr e1
      · exact ih hb.tail.tail (by omega)
          (by rw [show stop + 2 + bs.length = stop + (bs.length + 1 + 1) by omega]; exact e2)
          (by omega) (by simp) h t hm
  | case3 b bs start stop _ hwb ih =>
    simp only [List.length_cons] at hl ht
    obtain ⟨e1, e2, e3⟩ := between_split (x := [b]) (y := bs) hl ht (by omega)
    simp only [List.length_cons, List.length_nil] at e1 e2 e3
    refine ih hb.tail (by omega)
      (by rw [show stop + 1 + bs.length = stop + (bs.length + 1) by omega]; exact e2)
      (by omega) ?_ h
    rw [← between_append text hs (show stop ≤ stop + 1 by omega), e1, List.mem_append, not_or]
    refine ⟨hw, fun hm => ?_⟩
    rw [← List.mem_singleton.mp hm] at hwb
    exact absurd hwb (by decide)
  | case4 b bs start stop hne hwb hnl ih =>
    simp only [List.length_cons] at hl ht
    obtain ⟨e1, e2, e3⟩ := between_split (x := [b]) (y := bs) hl ht (by omega)
    simp only [List.length_cons, List.length_nil] at e1 e2 e3
    simp only [Option.bind_eq_bind, Option.bind_eq_some_iff, Option.some.injEq] at h
    obtain ⟨r, h, rfl⟩ := h
    have hb13 : b ≠ 13 := by
      rintro rfl
      obtain ⟨c, rfl⟩ := hb [] bs rfl
      exact hne c rfl rfl
    intro t htm
    rcases List.mem_append.mp htm with hm | hm
    · exact crisp_pending hw t hm
    · rcases List.mem_cons.mp hm with rfl | hm
      · refine .inl ?_
        simp only
        rw [e1]
        simpa using fun h => hb13 h.symm
      · exact ih hb.tail (by omega)
          (by rw [show stop + 1 + bs.length = stop + (bs.length + 1) by omega]; exact e2)
          (by omega) (by simp) h t hm
  | case5 => cases h

theorem derive_crisp {b : Bool} {a s : Nat} (h1 : a ≤ s) (h2 : s ≤ text.length)
    (hg : Lined (between text a s)) {ts : List Trivia} (h : deriveTrivia (between text a s) a b = some ts) :
    ∀ t ∈ ts, Crisp (between text t.start t.stop) := by
  have hlen := between_length (a := a) h2
  cases b with
  | false =>
    refine lead_crisp (between text a s) a a hg (by omega)
      (by rw [hlen, show a + (s - a) = s by omega]) (Nat.le_refl a) (by simp) (by simpa [deriveTrivia] using h)
  | true =>
    simp only [deriveTrivia, if_true] at h
    have hsp := (List.takeWhile_append_dropWhile (p := fun b : Byte => !(b == 13 || b == 10))
      (l := between text a s)).symm
    have hws := takeWhile_no (p := fun b : Byte => !(b == 13 || b == 10)) (l := between text a s)
    generalize (between text a s).takeWhile (fun b : Byte => !(b == 13 || b == 10)) = ws at *
    generalize (between text a s).dropWhile (fun b : Byte => !(b == 13 || b == 10)) = rest at *
    obtain ⟨e1, e2, e3⟩ := between_split h2 hsp h1
    have hrl : a + ws.length + rest.length = s := by
      rw [hsp, List.length_append] at hlen; omega
    simp only [Option.bind_eq_bind, Option.bind_eq_some_iff, Option.some.injEq] at h
    obtain ⟨r, h, rfl⟩ := h
    have hd := lead_crisp (text := text) rest (a + ws.length) (a + ws.length) (by rw [hsp] at hg; exact hg.right) (by omega)
      (by rw [hrl]; exact e2) (Nat.le_refl _) (by simp) h
    intro t ht
    rcases List.mem_append.mp ht with hm | hm
    · split at hm
      · cases hm
      · obtain rfl := List.mem_singleton.mp hm
        refine .inl ?_
        simp only
        rw [e1]
        intro h13
        have := hws 13 h13
        simp at this
    · exact hd t hm

/-- Trivia that the leaves give contain carriage returns only as part of line ends. -/
theorem crisp_fold (hl : Lined text) : ∀ (ls : List Leaf) (pos : Nat) (cmt b : Bool) (tv : List Trivia) (p : Pos),
    Tiled text text.length pos cmt ls → (∀ l ∈ ls, Apart text l.start ∧ Apart text l.stop) →
    (∀ t ∈ tv, Crisp (between text t.start t.stop)) →
    (leafFold text ls ⟨tv, pos, b⟩).bind (rootStep text text.length) = some p →
    ∀ t ∈ p.trivia, Crisp (between text t.start t.stop)
  | [], pos, cmt, b, tv, p, ht, _, htv, h => by
    obtain ⟨h1, h2, h3, h4⟩ := ht
    simp only [leafFold_nil, Option.bind_some, rootStep, slice_some h1 h2, Option.bind_eq_bind,
      Option.bind_eq_some_iff, Option.some.injEq] at h
    obtain ⟨ts, h, rfl⟩ := h
    intro t ht
    rcases List.mem_append.mp ht with hm | hm
    · exact htv t hm
    · exact derive_crisp h1 h2 (lined_between hl h1 h2 (apart_end text)) h t hm
  | l :: ls, pos, cmt, b, tv, p, ht, ha, htv, h => by
    obtain ⟨h1, h2, h3, h4, h5, h6, h7⟩ := ht
    obtain ⟨ha1, ha2⟩ := ha l (by simp)
    have hs : l.start ≤ text.length := Nat.le_trans (Nat.le_of_lt h2) h3
    have hgap := lined_between hl h1 hs ha1
    rw [leafFold_cons, Option.bind_assoc] at h
    obtain ⟨q, hq, h⟩ := Option.bind_eq_some_iff.1 h
    have ih := crisp_fold hl ls
    by_cases hc : l.isComment = true
    · have h13 : Crisp (between text l.start l.stop) :=
        .inl ((lined_between hl (Nat.le_of_lt h2) h3 ha2).no13 (h6 hc))
      simp only [leafStep, hc, if_true, commentStep, slice_some h1 hs, Option.bind_eq_bind,
        Option.bind_some] at hq
      split at hq
      · simp only [Option.bind_eq_some_iff, Option.some.injEq] at hq
        obtain ⟨ts, hq, rfl⟩ := hq
        refine ih _ _ _ _ _ h7 (fun l hl => ha l (by simp [hl])) ?_ h
        intro t ht
        rcases List.mem_append.mp ht with hm | hm
        · rcases List.mem_append.mp hm with hm | hm
          · exact htv t hm
          · exact derive_crisp h1 hs hgap hq t hm
        · obtain rfl := List.mem_singleton.mp hm
          exact h13
      · rename_i h10
        cases hq
        refine ih _ _ _ _ _ h7 (fun l hl => ha l (by simp [hl])) ?_ h
        intro t ht
        rcases List.mem_append.mp ht with hm | hm
        · rcases List.mem_append.mp hm with hm | hm
          · exact htv t hm
          · split at hm
            · cases hm
            · obtain rfl := List.mem_singleton.mp hm
              exact .inl (hgap.no13 (by simpa using h10))
        · obtain rfl := List.mem_singleton.mp hm
          exact h13
    · simp only [leafStep, hc, if_false, tokenStep, slice_some h1 hs, Option.bind_eq_bind,
        Option.bind_some, Option.bind_eq_some_iff, Option.some.injEq, Bool.false_eq_true] at hq
      obtain ⟨ts, hq, rfl⟩ := hq
      refine ih _ _ _ _ _ h7 (fun l hl => ha l (by simp [hl])) ?_ h
      intro t ht
      rcases List.mem_append.mp ht with hm | hm
      · exact htv t hm
      · exact derive_crisp h1 hs hgap hq t hm

theorem eat_pieces (side : Bool) : ∀ (tv : List Trivia) (pos : Nat),
    (∀ q ∈ (eatTrivia text side tv pos).1, ∃ t ∈ tv, q = pieceOf text t) ∧
    ∀ t ∈ (eatTrivia text side tv pos).2.2, t ∈ tv
  | [], pos => by simp [eatTrivia]
  | t :: tv, pos => by
    rw [eatTrivia]
    split
    · obtain ⟨h1, h2⟩ := eat_pieces side tv (pos + (t.stop - t.start))
      refine ⟨fun q hq => ?_, fun u hu => List.mem_cons_of_mem _ (h2 u hu)⟩
      rcases List.mem_cons.1 hq with rfl | hq
      · exact ⟨t, by simp, rfl⟩
      · obtain ⟨u, hu, e⟩ := h1 q hq
        exact ⟨u, by simp [hu], e⟩
    · simp

theorem fill_pieces : ∀ (ks : List (Kind × Nat)) (pos : Nat) (tv : List Trivia) {ts : List Token} {e : Nat}
    {r : List Trivia}, fillToks text ks pos tv = some (ts, e, r) →
    ∀ t ∈ ts, ∀ q ∈ t.leading ++ t.trailing, ∃ u ∈ tv, q = pieceOf text u
  | [], pos, tv, ts, e, r, h => by cases h; simp
  | (k, s) :: ks, pos, tv, ts, e, r, h => by
    simp only [fillToks, Option.bind_eq_bind, Option.bind_eq_some_iff, Option.some.injEq] at h
    obtain ⟨⟨t, p1, tv1⟩, h1, ⟨us, p2, tv2⟩, h2, h3⟩ := h
    cases h3
    simp only [buildToken, Option.bind_eq_bind, Option.bind_eq_some_iff, Option.some.injEq] at h1
    obtain ⟨own, -, h1⟩ := h1
    cases h1
    obtain ⟨g1, g2⟩ := eat_pieces (text := text) false tv pos
    obtain ⟨g3, g4⟩ := eat_pieces (text := text) true (eatTrivia text false tv pos).2.2 s
    intro t ht q hq
    rcases List.mem_cons.1 ht with rfl | ht
    · rcases List.mem_append.1 hq with hq | hq
      · exact g1 q hq
      · obtain ⟨u, hu, e⟩ := g3 q hq
        exact ⟨u, g2 u hu, e⟩
    · obtain ⟨u, hu, e⟩ := fill_pieces ks _ _ h2 t ht q hq
      exact ⟨u, g2 u (g4 u hu), e⟩

/-! ## Deciding -/

theorem apart_get {text : List Byte} {i : Nat} (h : ¬ (text[i - 1]? = some 13 ∧ text[i]? = some 10)) :
    Apart text i := by
  rintro a b rfl rfl
  refine h ⟨?_, ?_⟩
  · simp
  · rw [List.getElem?_append_right (by omega), show a.length + 1 - a.length = 1 by omega]
    rfl

theorem lined_get {text : List Byte} (h : ∀ i < text.length, text[i]? = some 13 → text[i + 1]? = some 10) :
    Lined text := by
  rintro a b rfl
  have := h a.length (by simp) (by simp)
  rw [List.getElem?_append_right (by omega), show a.length + 1 - a.length = 1 by omega] at this
  cases b with
  | nil => cases this
  | cons c b => exact ⟨b, by rw [Option.some.inj this]⟩

end Verif.Parser
