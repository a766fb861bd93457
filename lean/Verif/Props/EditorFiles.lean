import Verif.Model.Editor

/-!
# C69: what the initialisation of a folder writes
-/

namespace Verif.Editor

/-! ## Lines -/

/-- `p` is a line of the text, if lines end with `nl`. -/
def LineOf (nl p c : List Char) : Prop :=
  ∃ a b, c = a ++ p ++ b ∧ (a = [] ∨ nl <:+ a) ∧ (b = [] ∨ nl <+: b)

/-- Lines with the text after each of them. -/
def written (nl : List Char) (ls : List (List Char)) : List Char := ls.flatMap (· ++ nl)

theorem join_written (nl : List Char) : ∀ ls, ls ≠ [] → joinLines nl ls ++ nl = written nl ls
  | [], h => absurd rfl h
  | [l], _ => by simp [joinLines, written]
  | l :: m :: ls, _ => by
    have := join_written nl (m :: ls) (by simp)
    simp only [written, joinLines, List.flatMap_cons, List.append_assoc] at this ⊢
    rw [this]

theorem join_snoc (nl : List Char) (l : List Char) : ∀ ls, joinLines nl (ls ++ [l]) = written nl ls ++ l
  | [] => rfl
  | [k] => by simp [joinLines, written]
  | k :: m :: ls => by
    have := join_snoc nl l (m :: ls)
    simp only [List.cons_append, joinLines, written, List.flatMap_cons, List.append_assoc] at this ⊢
    rw [this]

theorem splitLf_ne (c : List Char) : splitLf c ≠ [] := by
  cases c with
  | nil => simp [splitLf]
  | cons x c =>
    unfold splitLf
    split
    · simp
    · split <;> simp

theorem splitLf_append (r : List Char) : ∀ a, splitLf (a ++ '\n' :: r) = splitLf a ++ splitLf r
  | [] => by simp [splitLf]
  | x :: a => by
    have ih := splitLf_append r a
    simp only [List.cons_append]
    rw [splitLf, splitLf]
    split
    · rw [ih, List.cons_append]
    · rw [ih]
      cases h : splitLf a with
      | nil => exact absurd h (splitLf_ne a)
      | cons l ls => rfl

theorem splitLf_line : ∀ p : List Char, '\n' ∉ p → splitLf p = [p]
  | [], _ => rfl
  | x :: p, h => by
    have ih := splitLf_line p (fun hh => h (List.mem_cons_of_mem _ hh))
    have hx : x ≠ '\n' := fun hx => h (hx ▸ List.mem_cons_self)
    rw [splitLf, if_neg hx, ih]

theorem joinLf : ∀ c, joinLines ['\n'] (splitLf c) = c
  | [] => rfl
  | x :: c => by
    have ih := joinLf c
    rw [splitLf]
    cases h : splitLf c with
    | nil => exact absurd h (splitLf_ne c)
    | cons l ls =>
      rw [h] at ih
      split
      · rename_i hx
        rw [hx, joinLines, ih]
        rfl
      · cases ls with
        | nil => simp only [joinLines] at ih ⊢; rw [ih]
        | cons m ls => simp only [joinLines, List.cons_append] at ih ⊢; rw [ih]

theorem splitCrlf_ne (cr : Bool) : ∀ c : List Char, splitCrlf cr c ≠ []
  | [] => by cases cr <;> simp [splitCrlf]
  | x :: c => by
    rw [splitCrlf]
    split
    · simp
    · have := splitCrlf_ne (x == '\r') c
      split
      · simp
      · rename_i h; exact absurd h this

theorem splitCrlf_append (r : List Char) : ∀ (a : List Char) (cr : Bool),
    splitCrlf cr (a ++ '\r' :: '\n' :: r) = splitCrlf cr a ++ splitCrlf false r
  | [], cr => by cases cr <;> simp [splitCrlf]
  | x :: a, cr => by
    have ih := splitCrlf_append r a
    simp only [List.cons_append]
    rw [splitCrlf, splitCrlf]
    split
    · rw [ih, List.cons_append]
    · rw [ih]
      cases h : splitCrlf (x == '\r') a with
      | nil => exact absurd h (splitCrlf_ne _ a)
      | cons l ls => rfl

theorem splitCrlf_line : ∀ p : List Char, '\r' ∉ p → splitCrlf false p = [p]
  | [], _ => rfl
  | x :: p, h => by
    have ih := splitCrlf_line p (fun hh => h (List.mem_cons_of_mem _ hh))
    have hx : (x == '\r') = false := by
      rw [beq_eq_false_iff_ne]
      exact fun hx => h (hx ▸ List.mem_cons_self)
    rw [splitCrlf, hx, ih]
    rfl

theorem joinCrlf : ∀ (c : List Char) (cr : Bool),
    joinLines ['\r', '\n'] (splitCrlf cr c) = (if cr then ['\r'] else []) ++ c
  | [], cr => by cases cr <;> rfl
  | x :: c, cr => by
    rw [splitCrlf]
    split
    · rename_i hx
      simp only [Bool.and_eq_true, beq_iff_eq] at hx
      have ih := joinCrlf c false
      cases h : splitCrlf false c with
      | nil => exact absurd h (splitCrlf_ne _ c)
      | cons l ls =>
        rw [h] at ih
        rw [joinLines, ih, hx.1, hx.2]
        rfl
    · have ih := joinCrlf c (x == '\r')
      cases h : splitCrlf (x == '\r') c with
      | nil => exact absurd h (splitCrlf_ne _ c)
      | cons l ls =>
        rw [h] at ih
        dsimp only
        cases hx : x == '\r' with
        | true =>
          rw [hx] at ih
          simp only [if_true, List.singleton_append] at ih ⊢
          rw [beq_iff_eq] at hx
          rw [hx]
          cases ls with
          | nil => simp only [joinLines] at ih ⊢; rw [ih]
          | cons m ls => simp only [joinLines, List.append_assoc] at ih ⊢; rw [ih]
        | false =>
          rw [hx] at ih
          simp only [Bool.false_eq_true, if_false, List.nil_append] at ih ⊢
          cases ls with
          | nil => simp only [joinLines] at ih ⊢; rw [ih]
          | cons m ls => simp only [joinLines, List.append_assoc, List.cons_append] at ih ⊢; rw [ih]

/-- The end of a line in a file. -/
def newline (c : List Char) : List Char := if includesCrlf c then ['\r', '\n'] else ['\n']

/-- The lines of a file. -/
def linesOf (crlf : Bool) (c : List Char) : List (List Char) := if crlf then splitCrlf false c else splitLf c

/-- The end of a line. -/
def ending (crlf : Bool) : List Char := if crlf then ['\r', '\n'] else ['\n']

theorem lines_ne (b : Bool) (c : List Char) : linesOf b c ≠ [] := by
  cases b
  · exact splitLf_ne c
  · exact splitCrlf_ne _ c

theorem lines_append (b : Bool) (a r : List Char) : linesOf b (a ++ ending b ++ r) = linesOf b a ++ linesOf b r := by
  cases b
  · simpa [linesOf, ending] using splitLf_append r a
  · simpa [linesOf, ending] using splitCrlf_append r a false

theorem lines_join (b : Bool) (c : List Char) : joinLines (ending b) (linesOf b c) = c := by
  cases b
  · exact joinLf c
  · simpa [linesOf, ending] using joinCrlf c false

theorem lines_line (b : Bool) (p : List Char) (h : '\r' ∉ p ∧ '\n' ∉ p) : linesOf b p = [p] := by
  cases b
  · exact splitLf_line p h.2
  · exact splitCrlf_line p h.1

theorem lines_nil (b : Bool) : linesOf b [] = [[]] := by cases b <;> rfl

theorem mem_lines (b : Bool) (p c : List Char) (h : '\r' ∉ p ∧ '\n' ∉ p) :
    p ∈ linesOf b c ↔ LineOf (ending b) p c := by
  constructor
  · intro hp
    obtain ⟨xs, ys, hxy⟩ := List.append_of_mem hp
    have hj := lines_join b c
    rw [hxy] at hj
    cases ys with
    | nil =>
      rw [join_snoc] at hj
      refine ⟨written (ending b) xs, [], by simp [hj], ?_, .inl rfl⟩
      rcases List.eq_nil_or_concat xs with rfl | ⟨ys, y, rfl⟩
      · exact .inl rfl
      · exact .inr ⟨written (ending b) ys ++ y, by simp [written]⟩
    | cons y ys =>
      have hj2 : ∀ xs : List (List Char), joinLines (ending b) (xs ++ p :: y :: ys) =
          written (ending b) xs ++ p ++ ending b ++ joinLines (ending b) (y :: ys) := by
        intro xs
        induction xs with
        | nil => simp [joinLines, written]
        | cons x xs ih =>
          cases xs with
          | nil => simp [joinLines, written]
          | cons x' xs =>
            simp only [List.cons_append, joinLines, written, List.flatMap_cons, List.append_assoc] at ih ⊢
            rw [ih]
      rw [hj2] at hj
      refine ⟨written (ending b) xs, ending b ++ joinLines (ending b) (y :: ys), by simp [← hj], ?_,
        .inr ⟨_, rfl⟩⟩
      rcases List.eq_nil_or_concat xs with rfl | ⟨zs, z, rfl⟩
      · exact .inl rfl
      · exact .inr ⟨written (ending b) zs ++ z, by simp [written]⟩
  · rintro ⟨a, r, rfl, ha, hr⟩
    have h1 : p ∈ linesOf b (p ++ r) := by
      rcases hr with rfl | ⟨r', rfl⟩
      · rw [List.append_nil, lines_line b p h]
        simp
      · rw [← List.append_assoc, lines_append, lines_line b p h]
        simp
    rcases ha with rfl | ⟨a', rfl⟩
    · simpa using h1
    · rw [List.append_assoc _ p r, lines_append]
      exact List.mem_append_right _ h1

theorem last_lines (b : Bool) (c : List Char) :
    (linesOf b c).getLast? = some [] ↔ c = [] ∨ ending b <:+ c := by
  constructor
  · intro h
    rcases List.eq_nil_or_concat (linesOf b c) with h' | ⟨ls, l, h'⟩
    · exact absurd h' (lines_ne b c)
    · rw [h'] at h
      have hl : l = [] := by simpa using h
      have hj := lines_join b c
      rw [h', List.concat_eq_append, join_snoc, hl, List.append_nil] at hj
      rcases List.eq_nil_or_concat ls with rfl | ⟨ks, k, rfl⟩
      · exact .inl hj.symm
      · refine .inr ⟨written (ending b) ks ++ k, ?_⟩
        rw [← hj]
        simp [written]
  · rintro (rfl | ⟨a, rfl⟩)
    · rw [lines_nil]; rfl
    · have := lines_append b a []
      rw [List.append_nil, lines_nil] at this
      rw [this]
      simp

theorem addMissing_eq : ∀ (ps : List (List Char)) (ls : List (List Char)), ps.Nodup →
    addMissing ps ls = ls ++ ps.filter (fun p => !ls.contains p)
  | [], ls, _ => by simp [addMissing]
  | p :: ps, ls, h => by
    rw [List.nodup_cons] at h
    rw [addMissing]
    split
    · rename_i hp
      rw [addMissing_eq ps ls h.2, List.filter_cons_of_neg (by simpa using hp)]
    · rename_i hp
      rw [addMissing_eq ps _ h.2, List.filter_cons_of_pos (by simpa using hp)]
      rw [List.append_assoc, List.singleton_append]
      congr 2
      apply List.filter_congr
      intro q hq
      have : q ≠ p := fun hqp => h.1 (hqp ▸ hq)
      simp [this]

/-! ## `.Rbuildignore` -/

/-- The lines that are looked for are not in the file. -/
def missingLines (b : Bool) (c : List Char) : List (List Char) :=
  ignorePatterns.filter fun p => !(linesOf b c).contains p

theorem pattern_plain {p : List Char} (h : p ∈ ignorePatterns) : '\r' ∉ p ∧ '\n' ∉ p ∧ p ≠ [] := by
  have : ∀ p ∈ ignorePatterns, '\r' ∉ p ∧ '\n' ∉ p ∧ p ≠ [] := by decide
  exact this p h

theorem mem_missing {b : Bool} {c p : List Char} :
    p ∈ missingLines b c ↔ p ∈ ignorePatterns ∧ ¬ LineOf (ending b) p c := by
  simp only [missingLines, List.mem_filter, Bool.not_eq_true', ← Bool.not_eq_true, List.contains_iff_mem]
  refine and_congr_right fun hp => ?_
  rw [mem_lines b p c ⟨(pattern_plain hp).1, (pattern_plain hp).2.1⟩]

theorem update_eq (c : List Char) :
    updateRbuildignore c =
      if missingLines (includesCrlf c) c = [] then none
      else some (c ++ (if (linesOf (includesCrlf c) c).getLast? = some [] then [] else ending (includesCrlf c)) ++
        written (ending (includesCrlf c)) (missingLines (includesCrlf c) c)) := by
  generalize hb : includesCrlf c = b
  have h0 : (if includesCrlf c then splitCrlf false c else splitLf c) = linesOf b c := by rw [hb]; rfl
  have h1 : (if includesCrlf c then ['\r', '\n'] else ['\n']) = ending b := by rw [hb]; rfl
  simp only [updateRbuildignore, h0, h1]
  generalize hL : (if (linesOf b c).getLast? = some [] then (linesOf b c).dropLast else linesOf b c) = L
  have hm : ∀ p ∈ ignorePatterns, L.contains p = (linesOf b c).contains p := by
    intro p hp
    rw [← hL]
    split
    · rename_i hl
      rcases List.eq_nil_or_concat (linesOf b c) with h' | ⟨ls, l, h'⟩
      · exact absurd h' (lines_ne b c)
      · rw [h'] at hl ⊢
        have hl : l = [] := by simpa using hl
        have := (pattern_plain hp).2.2
        simp [hl, this]
    · rfl
  have hf : ignorePatterns.filter (fun p => !L.contains p) = missingLines b c :=
    List.filter_congr fun p hp => by rw [hm p hp]
  have ha : (ignorePatterns.all fun p => L.contains p) = true ↔ missingLines b c = [] := by
    rw [← hf, List.filter_eq_nil_iff, List.all_eq_true]
    simp
  by_cases hn : missingLines b c = []
  · rw [if_pos (ha.2 hn), if_pos hn]
  · rw [if_neg (fun h => hn (ha.1 h)), if_neg hn, addMissing_eq _ _ (by decide), hf,
      join_written _ _ (by simp [hn])]
    have hw : written (ending b) L = c ++ (if (linesOf b c).getLast? = some [] then [] else ending b) := by
      have hj := lines_join b c
      rw [← hL]
      split
      · rename_i hl
        rcases List.eq_nil_or_concat (linesOf b c) with h' | ⟨ls, l, h'⟩
        · exact absurd h' (lines_ne b c)
        · rw [h'] at hl hj ⊢
          have hl : l = [] := by simpa using hl
          rw [List.concat_eq_append, join_snoc, hl] at hj
          simpa using hj
      · rw [← join_written _ _ (lines_ne b c), hj]
    rw [← hw]
    simp [written]

/-- C69: the text of an `.Rbuildignore` is kept. What is added are the missing ones of the two lines, at the end, with the
line endings of the file; a last line without an end gets one. If none of them is missing, nothing is written. -/
theorem C69_rbuildignore (c : List Char) :
    (updateRbuildignore c = none ∧ ∀ p ∈ ignorePatterns, LineOf (newline c) p c) ∨
    ∃ pad missing, updateRbuildignore c = some (c ++ pad ++ missing.flatMap (· ++ newline c)) ∧
      (c = [] ∨ newline c <:+ c → pad = []) ∧ (¬ (c = [] ∨ newline c <:+ c) → pad = newline c) ∧
      missing ≠ [] ∧ missing.Sublist ignorePatterns ∧
      ∀ p ∈ ignorePatterns, p ∈ missing ↔ ¬ LineOf (newline c) p c := by
  rw [update_eq]
  have hnl : newline c = ending (includesCrlf c) := rfl
  split
  · rename_i h
    refine .inl ⟨rfl, fun p hp => Classical.byContradiction fun hh => ?_⟩
    have := mem_missing.2 ⟨hp, hh⟩
    rw [h] at this
    cases this
  · rename_i h
    refine .inr ⟨_, _, rfl, fun hc => if_pos ((last_lines _ c).2 hc), fun hc => if_neg fun hh => hc ((last_lines _ c).1 hh),
      h, List.filter_sublist, fun p hp => ?_⟩
    rw [mem_missing]
    exact ⟨And.right, fun hh => ⟨hp, hh⟩⟩

theorem crlf_append (a b : List Char) :
    includesCrlf (a ++ b) = (includesCrlf a || includesCrlf b || (a.getLast? == some '\r' && b.head? == some '\n')) := by
  induction a with
  | nil => simp [includesCrlf]
  | cons x a ih =>
    rw [List.cons_append, includesCrlf, ih, includesCrlf]
    cases a with
    | nil => cases b <;> simp [includesCrlf, Bool.or_comm]
    | cons y a =>
      simp only [List.cons_append, List.head?_cons, List.getLast?_cons_cons]
      simp only [Bool.or_assoc]

theorem crlf_iff {a : List Char} : includesCrlf a = true ↔ ∃ x y, a = x ++ '\r' :: '\n' :: y := by
  constructor
  · intro h
    induction a with
    | nil => cases h
    | cons x a ih =>
      rw [includesCrlf, Bool.or_eq_true] at h
      rcases h with h | h
      · simp only [Bool.and_eq_true, beq_iff_eq] at h
        cases a with
        | nil => cases h.2
        | cons y a =>
          simp only [List.head?_cons, Option.some.injEq] at h
          exact ⟨[], a, by rw [h.1, h.2]; rfl⟩
      · obtain ⟨u, v, rfl⟩ := ih h
        exact ⟨x :: u, v, rfl⟩
  · rintro ⟨x, y, rfl⟩
    rw [crlf_append]
    simp [includesCrlf]

theorem written_no_cr {ls : List (List Char)} (h : ∀ p ∈ ls, '\r' ∉ p) : '\r' ∉ written ['\n'] ls := by
  intro hh
  obtain ⟨p, hp, hq⟩ := List.mem_flatMap.1 hh
  rcases List.mem_append.1 hq with hq | hq
  · exact h p hp hq
  · simp at hq

theorem no_cr {c : List Char} (h : '\r' ∉ c) : includesCrlf c = false := by
  rw [← Bool.not_eq_true]
  intro hh
  obtain ⟨x, y, rfl⟩ := crlf_iff.1 hh
  simp at h

/-- The lines are in the text that is written, and the next run sees them there, unless the last line ended with a lone
carriage return. -/
theorem update_stable (c c' : List Char) (h : updateRbuildignore c = some c')
    (hc : c.getLast? ≠ some '\r' ∨ includesCrlf c = true) : updateRbuildignore c' = none := by
  rw [update_eq] at h
  split at h
  · cases h
  rename_i hm
  cases h
  generalize hb : includesCrlf c = b at *
  generalize hpad : (if (linesOf b c).getLast? = some [] then [] else ending b) = pad
  have hms : ∀ p ∈ missingLines b c, p ∈ ignorePatterns := fun p hp => (mem_missing.1 hp).1
  have hcr : includesCrlf (c ++ pad ++ written (ending b) (missingLines b c)) = b := by
    cases b with
    | true =>
      rw [List.append_assoc, crlf_append, hb]
      rfl
    | false =>
      have hw := written_no_cr fun p hp => (pattern_plain (hms p hp)).1
      have hpad' : pad = [] ∨ pad = ['\n'] := by
        rw [← hpad]
        split
        · exact .inl rfl
        · exact .inr rfl
      have hc : c.getLast? ≠ some '\r' := hc.elim id fun h => by cases h
      change includesCrlf (c ++ pad ++ written ['\n'] (missingLines false c)) = false
      rw [List.append_assoc, crlf_append, hb]
      have : '\r' ∉ pad ++ written ['\n'] (missingLines false c) := by
        rw [List.mem_append]
        rintro (h | h)
        · rcases hpad' with rfl | rfl <;> simp at h
        · exact hw h
      rw [no_cr this]
      simp [hc]
  rw [update_eq, hcr, if_pos]
  rw [missingLines, List.filter_eq_nil_iff]
  intro p hp
  have hpl := pattern_plain hp
  simp only [Bool.not_eq_true', Bool.not_eq_false, List.contains_iff_mem]
  by_cases hl : p ∈ linesOf b c
  · -- lines of `c` are lines of the new text
    have hpe : pad = [] ∨ pad = ending b := by
      rw [← hpad]
      split
      · exact .inl rfl
      · exact .inr rfl
    rcases hpe with rfl | rfl
    · have hlast : (linesOf b c).getLast? = some [] := by
        apply Classical.byContradiction
        intro hh
        rw [if_neg hh] at hpad
        cases b <;> cases hpad
      rcases (last_lines b c).1 hlast with rfl | ⟨a, rfl⟩
      · rw [lines_nil] at hl
        exact absurd (by simpa using hl) hpl.2.2
      · rw [List.append_nil, lines_append]
        have := lines_append b a []
        rw [List.append_nil, lines_nil] at this
        rw [this] at hl
        rcases List.mem_append.1 hl with hl | hl
        · exact List.mem_append_left _ hl
        · exact absurd (by simpa using hl) hpl.2.2
    · rw [lines_append]
      exact List.mem_append_left _ hl
  · have hmem : p ∈ missingLines b c := by
      rw [missingLines, List.mem_filter]
      exact ⟨hp, by simpa using hl⟩
    obtain ⟨xs, ys, hxy⟩ := List.append_of_mem hmem
    rw [mem_lines b p _ ⟨hpl.1, hpl.2.1⟩]
    rw [hxy]
    refine ⟨c ++ pad ++ written (ending b) xs, ending b ++ written (ending b) ys, by simp [written], ?_, .inr ⟨_, rfl⟩⟩
    rcases List.eq_nil_or_concat xs with rfl | ⟨zs, z, rfl⟩
    · by_cases hlast : (linesOf b c).getLast? = some []
      · rw [if_pos hlast] at hpad
        rw [← hpad]
        rcases (last_lines b c).1 hlast with rfl | hs
        · exact .inl rfl
        · right
          simpa [written] using hs
      · rw [if_neg hlast] at hpad
        rw [← hpad]
        right
        exact ⟨c, by simp [written]⟩
    · right
      exact ⟨c ++ pad ++ written (ending b) zs ++ z, by simp [written]⟩

/-! ## The folder -/

/-- C69: the initialisation keeps all files and settings: an `air.toml` or `.air.toml`, the `extensions.json`, the
`.Rbuildignore` up to lines at its end, and all settings but the two for formatting. A new `air.toml` is only written if
there is neither of the two. -/
theorem C69_keeps (x : Files) :
    (∀ c, x.airToml = some c → x.initialize.airToml = some c) ∧ x.initialize.dotAirToml = x.dotAirToml ∧
    (x.airToml = none → (x.initialize.airToml = some [] ↔ x.dotAirToml = none) ∧
      (x.dotAirToml ≠ none → x.initialize.airToml = none)) ∧
    (∀ c, x.extensions = some c → x.initialize.extensions = some c) ∧
    (∀ c, x.rbuildignore = some c → ∃ c', x.initialize.rbuildignore = some c' ∧ c <+: c') ∧
    (x.rbuildignore = none → x.initialize.rbuildignore = none) ∧
    (∀ k, k ≠ "editor.formatOnSave" → k ≠ "editor.defaultFormatter" →
      x.initialize.r.bind (· k) = x.r.bind (· k) ∧ x.initialize.quarto.bind (· k) = x.quarto.bind (· k)) := by
  refine ⟨fun c h => by simp [Files.initialize, h], rfl, fun h => ?_, fun c h => by simp [Files.initialize, h],
    fun c h => ?_, fun h => by simp [Files.initialize, h], fun k h1 h2 => ?_⟩
  · cases hd : x.dotAirToml <;> simp [Files.initialize, h, hd]
  · refine ⟨(updateRbuildignore c).getD c, by simp [Files.initialize, h], ?_⟩
    rcases C69_rbuildignore c with ⟨h, -⟩ | ⟨pad, ms, h, -⟩
    · rw [h]
      exact List.prefix_refl c
    · rw [h]
      exact ⟨pad ++ ms.flatMap (· ++ newline c), by simp⟩
  · constructor
    · cases h : x.r <;> simp [Files.initialize, Section.set, h1, h2, h]
    · cases h : x.quarto <;> simp [Files.initialize, Section.set, h1, h2, h]

/-- C69: afterwards R and Quarto files are formatted when they are saved, there is a configuration file, and the two lines
are in the `.Rbuildignore`, if there is one. -/
theorem C69_initialized (x : Files) :
    (x.initialize.airToml ≠ none ∨ x.initialize.dotAirToml ≠ none) ∧
    x.initialize.r.bind (· "editor.formatOnSave") = some "true" ∧
    x.initialize.r.bind (· "editor.defaultFormatter") = some "\"Posit.air-vscode\"" ∧
    x.initialize.quarto.bind (· "editor.formatOnSave") = some "true" ∧
    x.initialize.quarto.bind (· "editor.defaultFormatter") = some "\"quarto.quarto\"" ∧
    ∀ c c', x.rbuildignore = some c → x.initialize.rbuildignore = some c' →
      ∀ p ∈ ignorePatterns, LineOf (newline c) p c' := by
  refine ⟨?_, by simp [Files.initialize, Section.set], by simp [Files.initialize, Section.set],
    by simp [Files.initialize, Section.set], by simp [Files.initialize, Section.set], ?_⟩
  · cases h1 : x.airToml <;> cases h2 : x.dotAirToml <;> simp [Files.initialize, h1, h2]
  · intro c c' hc hc' p hp
    simp only [Files.initialize, hc, Option.map_some, Option.some.injEq] at hc'
    rcases C69_rbuildignore c with ⟨h, h'⟩ | ⟨pad, ms, h, h1, h2, -, -, h3⟩
    · rw [h] at hc'
      cases hc'
      exact h' p hp
    · rw [h] at hc'
      cases hc'
      by_cases hl : LineOf (newline c) p c
      · obtain ⟨a, b, hab, ha, hb⟩ := hl
        refine ⟨a, b ++ pad ++ ms.flatMap (· ++ newline c), ?_, ha, ?_⟩
        · simp only [Option.getD_some, ← List.append_assoc]
          rw [← hab]
        · rcases hb with rfl | ⟨b', rfl⟩
          · by_cases hs : c = [] ∨ newline c <:+ c
            · exfalso
              have hpl := pattern_plain hp
              rcases hs with hs | ⟨a', hs⟩
              · rw [hs] at hab
                have : p = [] := by simpa using (List.append_eq_nil_iff.1 (List.append_eq_nil_iff.1 hab.symm).1).2
                exact hpl.2.2 this
              · have hl : c.getLast? = some '\n' := by
                  rw [← hs, List.getLast?_append]
                  rw [newline]
                  split <;> rfl
                rw [hab, List.append_nil, List.getLast?_append] at hl
                cases hq : p.getLast? with
                | none => exact hpl.2.2 (List.getLast?_eq_none_iff.1 hq)
                | some q =>
                  rw [hq] at hl
                  cases hl
                  exact hpl.2.1 (List.mem_of_getLast? hq)
            · rw [h2 hs]
              exact .inr ⟨ms.flatMap (· ++ newline c), by simp⟩
          · exact .inr ⟨b' ++ pad ++ ms.flatMap (· ++ newline c), by simp⟩
      · obtain ⟨xs, ys, rfl⟩ := List.append_of_mem ((h3 p hp).2 hl)
        refine ⟨c ++ pad ++ xs.flatMap (· ++ newline c), newline c ++ ys.flatMap (· ++ newline c), by simp, ?_, .inr ⟨_, rfl⟩⟩
        rcases List.eq_nil_or_concat xs with rfl | ⟨zs, z, rfl⟩
        · by_cases hs : c = [] ∨ newline c <:+ c
          · rw [h1 hs]
            simpa using hs
          · rw [h2 hs]
            exact .inr ⟨c, by simp⟩
        · exact .inr ⟨c ++ pad ++ zs.flatMap (· ++ newline c) ++ z, by simp⟩

/-- C69 a second time: nothing changes any more. Not if the last line of an `.Rbuildignore` with line feeds ends with a
lone carriage return (`C69_carriage_return`). -/
theorem C69_twice_partial (x : Files)
    (h : ∀ c, x.rbuildignore = some c → c.getLast? ≠ some '\r' ∨ includesCrlf c = true) :
    x.initialize.initialize = x.initialize := by
  have h1 : ∀ s : Option Section, ∀ f : String, some ((((some (((s.getD fun _ => none).set "editor.formatOnSave" "true").set
      "editor.defaultFormatter" f) : Option Section).getD fun _ => none).set "editor.formatOnSave" "true").set
      "editor.defaultFormatter" f) = some (((s.getD fun _ => none).set "editor.formatOnSave" "true").set
      "editor.defaultFormatter" f) := by
    intro s f
    congr 1
    funext k
    simp only [Section.set, Option.getD_some]
    split
    · rfl
    · split <;> rfl
  obtain ⟨a, d, v, e, r, q, b⟩ := x
  simp only [Files.initialize, Files.mk.injEq, h1, and_true, true_and]
  refine ⟨?_, ?_, ?_⟩
  · cases a <;> cases d <;> rfl
  · cases e <;> rfl
  · cases b with
    | none => rfl
    | some c =>
      simp only [Option.map_some, Option.some.injEq]
      cases hu : updateRbuildignore c with
      | none => simp [hu]
      | some c' =>
        simp only [Option.getD_some]
        rw [update_stable c c' hu (h c rfl)]
        rfl

/-- C69: with a carriage return at the end of the last line the second run does not find the lines that the first one has
written, and writes them again. -/
theorem C69_carriage_return : ∃ c c', updateRbuildignore c = some c' ∧ updateRbuildignore c' ≠ none :=
  ⟨['a', '\r'], _, rfl, by decide⟩

/-! ## Example -/

namespace Ex

/-- An R package with CR LF line endings and settings of its own. -/
def package : Files :=
  ⟨none, some "[format]".toList, true, none,
    some fun k => if k = "editor.formatOnSave" then some "false" else if k = "editor.rulers" then some "[80]" else none,
    none, some "^LICENSE$\r\n^\\.vscode$".toList⟩

end Ex

example : Ex.package.initialize.rbuildignore = some "^LICENSE$\r\n^\\.vscode$\r\n^[.]?air[.]toml$\r\n".toList ∧
    Ex.package.initialize.airToml = none ∧
    Ex.package.initialize.r.bind (· "editor.formatOnSave") = some "true" ∧
    Ex.package.initialize.r.bind (· "editor.rulers") = some "[80]" := by decide
example : updateRbuildignore "a\n^\\.vscode$\n^[.]?air[.]toml$".toList = none ∧
    updateRbuildignore [] = some "^\\.vscode$\n^[.]?air[.]toml$\n".toList ∧
    updateRbuildignore "a\n\n".toList = some "a\n\n^\\.vscode$\n^[.]?air[.]toml$\n".toList := by decide
example (c : List Char) (h : Ex.package.rbuildignore = some c) : c.getLast? ≠ some '\r' ∨ includesCrlf c = true := by
  cases h
  decide

end Verif.Editor
