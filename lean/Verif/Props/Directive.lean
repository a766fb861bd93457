import Verif.Model.Directive

/-!
# C30: comment directives
-/

namespace Verif.Directive

/-- Blank characters: the 25 characters of Unicode with the property `White_Space`. -/
def blanks : List Nat :=
  [0x9, 0xA, 0xB, 0xC, 0xD, 0x20, 0x85, 0xA0, 0x1680, 0x2000, 0x2001, 0x2002, 0x2003, 0x2004, 0x2005,
   0x2006, 0x2007, 0x2008, 0x2009, 0x200A, 0x2028, 0x2029, 0x202F, 0x205F, 0x3000]

/-- Texts made of blank characters only. -/
def Blank (w : List Char) : Prop := ∀ c ∈ w, c.toNat ∈ blanks

/-- How directives are written. -/
def word : Directive → List Char
  | .skip => "skip".toList
  | .skipFile => "skip file".toList
  | .table => "table".toList

theorem isWhite_iff (c : Char) : isWhite c = true ↔ c.toNat ∈ blanks := by
  simp only [isWhite, blanks, Char.toNat, Bool.or_eq_true, Bool.and_eq_true, decide_eq_true_eq,
    beq_iff_eq, List.mem_cons, List.not_mem_nil, or_false]
  generalize c.val.toNat = n
  omega

theorem blank_iff {w : List Char} : Blank w ↔ ∀ c ∈ w, isWhite c = true := by
  simp [Blank, isWhite_iff]

theorem dropWhile_iff {α : Type} (p : α → Bool) (t r : List α) :
    t.dropWhile p = r ↔ ∃ w, t = w ++ r ∧ (∀ c ∈ w, p c = true) ∧ ∀ c ∈ r.head?, p c = false := by
  constructor
  · rintro rfl
    refine ⟨t.takeWhile p, List.takeWhile_append_dropWhile.symm, ?_, ?_⟩
    · induction t with
      | nil => simp
      | cons a t ih =>
        rw [List.takeWhile_cons]
        split
        · next h =>
          intro c hc
          rcases List.mem_cons.mp hc with rfl | hc
          · exact h
          · exact ih c hc
        · simp
    · intro c hc
      have := List.head?_dropWhile_not p t
      rw [Option.mem_def.mp hc] at this
      simpa using this
  · rintro ⟨w, rfl, h1, h2⟩
    rw [List.dropWhile_append_of_pos h1]
    cases r with
    | nil => rfl
    | cons a r => rw [List.dropWhile_cons_of_neg]; simp [h2 a rfl]

theorem trimComment_iff (t r : List Char) : trimComment t = some r ↔
    ∃ n w, t = List.replicate (n + 1) '#' ++ w ++ r ∧ Blank w ∧
      (∀ c ∈ r.head?, isWhite c = false) ∧ (w = [] → r.head? ≠ some '#') := by
  constructor
  · intro h
    unfold trimComment at h
    split at h
    · next t =>
      simp only [Option.some.injEq] at h
      obtain ⟨w, h1, h2, h3⟩ := (dropWhile_iff _ _ _).mp h
      obtain ⟨v, h4, h5, h6⟩ := (dropWhile_iff _ _ _).mp h1
      have hv : v = List.replicate v.length '#' := List.eq_replicate_iff.mpr ⟨rfl, by simpa using h5⟩
      refine ⟨v.length, w, ?_, blank_iff.mpr h2, h3, ?_⟩
      · rw [List.replicate_succ, ← hv, h4]; simp
      · rintro rfl hr
        have := h6 '#' (by simpa using hr)
        simp at this
    · cases h
  · rintro ⟨n, w, rfl, h2, h3, h4⟩
    rw [List.replicate_succ, List.cons_append, List.cons_append, trimComment, Option.some.injEq,
      trimStart, dropWhile_iff]
    refine ⟨w, ?_, blank_iff.mp h2, h3⟩
    rw [dropWhile_iff]
    refine ⟨List.replicate n '#', by simp, by simp, ?_⟩
    intro c hc
    cases w with
    | nil =>
      simp only [List.nil_append] at hc
      by_cases h : c = '#'
      · subst h; exact absurd hc (h4 rfl)
      · simpa using h
    | cons a w =>
      simp only [List.cons_append, List.head?_cons, Option.mem_def, Option.some.injEq] at hc
      subst hc
      by_cases h : a = '#'
      · subst h; have := h2 '#' (by simp); simp [blanks] at this
      · simpa using h

theorem splitColon_iff (t a b : List Char) :
    splitColon t = some (a, b) ↔ t = a ++ ':' :: b ∧ ':' ∉ a := by
  induction t generalizing a with
  | nil => simp [splitColon]
  | cons c t ih =>
    by_cases hc : c = ':'
    · subst hc
      simp only [splitColon, Option.some.injEq, Prod.mk.injEq]
      constructor
      · rintro ⟨rfl, rfl⟩; simp
      · rintro ⟨h, hn⟩
        cases a with
        | nil => simpa using h
        | cons x a =>
          simp only [List.cons_append, List.cons.injEq] at h
          exact absurd (by simp [← h.1]) hn
    · rw [splitColon.eq_3 _ _ (fun h => hc h)]
      simp only [Option.map_eq_some_iff, Prod.exists, Prod.mk.injEq]
      constructor
      · rintro ⟨a', b', h, rfl, rfl⟩
        obtain ⟨rfl, hn⟩ := (ih a').mp h
        exact ⟨rfl, by simp [hn, Ne.symm hc]⟩
      · rintro ⟨h, hn⟩
        cases a with
        | nil => simp at h; exact absurd h.1 hc
        | cons x a =>
          simp only [List.cons_append, List.cons.injEq] at h
          obtain ⟨rfl, rfl⟩ := h
          exact ⟨a, b, (ih a).mpr ⟨rfl, by simp at hn; exact hn.2⟩, rfl, rfl⟩

theorem trim_iff (t r : List Char) (h1 : ∃ a m, r = a :: m ∧ isWhite a = false)
    (h2 : ∃ m b, r = m ++ [b] ∧ isWhite b = false) :
    trim t = r ↔ ∃ v w, t = v ++ r ++ w ∧ Blank v ∧ Blank w := by
  rw [trim, List.reverse_eq_iff, dropWhile_iff]
  constructor
  · rintro ⟨w, h3, h4, -⟩
    have h5 : trimStart t = r ++ w.reverse := by rw [← List.reverse_inj, h3]; simp
    obtain ⟨v, rfl, h7, -⟩ := (dropWhile_iff _ _ _).mp h5
    exact ⟨v, w.reverse, by simp, blank_iff.mpr h7, blank_iff.mpr (by simpa using h4)⟩
  · rintro ⟨v, w, rfl, h3, h4⟩
    refine ⟨w.reverse, ?_, by simpa using blank_iff.mp h4, ?_⟩
    · have : trimStart (v ++ r ++ w) = r ++ w := by
        rw [trimStart, dropWhile_iff]
        refine ⟨v, by simp, blank_iff.mp h3, ?_⟩
        obtain ⟨a, m, rfl, ha⟩ := h1
        simpa using ha
      rw [this]; simp
    · obtain ⟨m, b, rfl, hb⟩ := h2
      simpa using hb

theorem parseFormat_iff (t : List Char) (d : Directive) : parseFormatDirective t = some d ↔ t = word d := by
  unfold parseFormatDirective
  constructor
  · intro h
    (repeat' split at h) <;> cases h <;> assumption
  · rintro rfl; cases d <;> decide

/-- **C30**: a comment is a directive exactly if it consists of one or more `#`, blanks, `fmt:`,
blanks, the directive, and blanks. -/
theorem C30_directive (t : List Char) (d : Directive) :
    parseCommentDirective t = some d ↔
      ∃ n u v w, t = List.replicate (n + 1) '#' ++ u ++ "fmt:".toList ++ v ++ word d ++ w ∧
        Blank u ∧ Blank v ∧ Blank w := by
  have hw : (∃ a m, word d = a :: m ∧ isWhite a = false) ∧ ∃ m b, word d = m ++ [b] ∧ isWhite b = false := by
    cases d
    · exact ⟨⟨'s', "kip".toList, by decide, by decide⟩, "ski".toList, 'p', by decide, by decide⟩
    · exact ⟨⟨'s', "kip file".toList, by decide, by decide⟩, "skip fil".toList, 'e', by decide, by decide⟩
    · exact ⟨⟨'t', "able".toList, by decide, by decide⟩, "tabl".toList, 'e', by decide, by decide⟩
  have hf : "fmt:".toList = "fmt".toList ++ [':'] := by decide
  simp only [parseCommentDirective, Option.bind_eq_bind, Option.bind_eq_some_iff, Prod.exists]
  constructor
  · rintro ⟨r, h1, a, b, h2, h3⟩
    split at h3
    · next ha =>
      obtain ⟨n, u, rfl, hu, -, -⟩ := (trimComment_iff _ _).mp h1
      obtain ⟨rfl, -⟩ := (splitColon_iff _ _ _).mp h2
      obtain ⟨v, w, rfl, hv, hw'⟩ := (trim_iff _ _ hw.1 hw.2).mp ((parseFormat_iff _ _).mp h3)
      exact ⟨n, u, v, w, by simp [ha, hf], hu, hv, hw'⟩
    · cases h3
  · rintro ⟨n, u, v, w, rfl, hu, hv, hw'⟩
    refine ⟨"fmt".toList ++ ':' :: (v ++ word d ++ w), (trimComment_iff _ _).mpr
      ⟨n, u, by simp [hf], hu, by simp; decide, fun _ => by simp⟩, "fmt".toList, v ++ word d ++ w,
      (splitColon_iff _ _ _).mpr ⟨rfl, by decide⟩, ?_⟩
    rw [if_pos rfl, parseFormat_iff, trim_iff _ _ hw.1 hw.2]
    exact ⟨v, w, rfl, hv, hw'⟩

/-- **C30**: a comment marks a generated file exactly if it consists of one or more `#`, blanks and
`Generated by` with anything after it. -/
theorem C30_generated (t : List Char) :
    (parseSpecialSkipFile t = some .skipFile ↔
      ∃ n u r, t = List.replicate (n + 1) '#' ++ u ++ "Generated by".toList ++ r ∧ Blank u) ∧
    (parseSpecialSkipFile t ≠ none → parseSpecialSkipFile t = some .skipFile) := by
  simp only [parseSpecialSkipFile, Option.bind_eq_bind]
  constructor
  · rw [Option.bind_eq_some_iff]
    constructor
    · rintro ⟨r, h1, h2⟩
      split at h2
      · next h =>
        obtain ⟨n, u, rfl, hu, -, -⟩ := (trimComment_iff _ _).mp h1
        obtain ⟨s, rfl⟩ := List.isPrefixOf_iff_prefix.mp h
        exact ⟨n, u, s, by simp, hu⟩
      · cases h2
    · rintro ⟨n, u, r, rfl, hu⟩
      refine ⟨"Generated by".toList ++ r, (trimComment_iff _ _).mpr
        ⟨n, u, by simp, hu, by simp; decide, fun _ => by simp⟩, ?_⟩
      rw [if_pos (List.isPrefixOf_iff_prefix.mpr ⟨r, rfl⟩)]
  · intro h
    cases ht : trimComment t with
    | none => rw [ht] at h; exact absurd rfl h
    | some r =>
      rw [ht] at h
      simp only [Option.bind_some] at h ⊢
      split at h
      · next h' => rw [if_pos h']
      · exact absurd rfl h

/-- **C30**: texts that do not start with `#` are never directives, and no comment is both a
directive and the mark of a generated file. -/
theorem C30_exclusive (t : List Char) :
    (t.head? ≠ some '#' → parseCommentDirective t = none ∧ parseSpecialSkipFile t = none) ∧
      (parseCommentDirective t ≠ none → parseSpecialSkipFile t = none) := by
  constructor
  · intro h
    have : trimComment t = none := by
      unfold trimComment
      split
      · simp at h
      · rfl
    rw [parseCommentDirective, parseSpecialSkipFile, this]
    exact ⟨rfl, rfl⟩
  · intro h
    obtain ⟨d, hd⟩ := Option.ne_none_iff_exists'.mp h
    obtain ⟨n, u, v, w, e, hu, -, -⟩ := (C30_directive t d).mp hd
    have h1 : trimComment t = some ("fmt:".toList ++ (v ++ word d ++ w)) :=
      (trimComment_iff _ _).mpr ⟨n, u, by rw [e]; simp only [List.append_assoc], hu, by simp; decide,
        fun _ => by simp⟩
    rw [parseSpecialSkipFile, h1]
    rfl

example : parseCommentDirective "##\t fmt: skip file ".toList = some .skipFile ∧
    parseCommentDirective "# fmt : skip".toList = none ∧
    parseCommentDirective "# # fmt: skip".toList = none ∧
    parseCommentDirective "# fmt: skip  file".toList = none ∧
    parseSpecialSkipFile "# Generated by: roxygen2".toList = some .skipFile := by decide

end Verif.Directive
