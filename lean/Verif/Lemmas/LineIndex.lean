import Verif.Spec.LineIndex
import Verif.Lemmas.Text

namespace Verif.LineIndex
open Verif.Text

/-- Code units of a text. -/
def width (enc : Encoding) (u : List Char) : Nat := (u.map (units enc)).sum

@[simp] theorem width_nil (enc : Encoding) : width enc [] = 0 := rfl
@[simp] theorem width_cons (enc : Encoding) (c : Char) (u : List Char) :
    width enc (c :: u) = units enc c + width enc u := by simp [width]

/-- Wide characters of a stretch without line feeds, starting at byte column `col`. -/
def wideOf : Nat → List Char → List WideChar
  | _, [] => []
  | col, c :: cs =>
    if c.utf8Size = 1 then wideOf (col + 1) cs
    else { start := col, stop := col + c.utf8Size } :: wideOf (col + c.utf8Size) cs

theorem newGo_seg (u w : List Char) (hu : '\n' ∉ u) (cur : Line) (col : Nat) :
    newGo (u ++ w) cur col =
      newGo w { cur with wide := cur.wide ++ wideOf col u } (col + size u) := by
  induction u generalizing cur col with
  | nil => simp [wideOf]
  | cons c u ih =>
    have hc : c ≠ '\n' := fun h => hu (by simp [h])
    have hu' : '\n' ∉ u := fun h => hu (by simp [h])
    simp only [List.cons_append, newGo, hc, if_false]
    rw [ih hu']
    by_cases h1 : c.utf8Size = 1
    · simp [wideOf, h1, Nat.add_assoc]
    · simp [wideOf, h1, Nat.add_assoc]

/-- The lines finished by a text `p` that ends in a line feed. -/
def linesGo : List Char → Line → Nat → Index
  | [], _, _ => []
  | c :: cs, cur, col =>
    if c = '\n' then cur :: linesGo cs { start := cur.start + col + 1, wide := [] } 0
    else
      linesGo cs
        { cur with
          wide := if c.utf8Size = 1 then cur.wide
                  else cur.wide ++ [{ start := col, stop := col + c.utf8Size }] }
        (col + c.utf8Size)

theorem utf8Size_lf : Char.utf8Size '\n' = 1 := by decide

theorem newGo_append_nl (p w : List Char) (cur : Line) (col : Nat) :
    newGo (p ++ '\n' :: w) cur col =
      linesGo (p ++ ['\n']) cur col ++
        newGo w { start := cur.start + col + size p + 1, wide := [] } 0 := by
  induction p generalizing cur col with
  | nil => simp [newGo, linesGo]
  | cons c p ih =>
    by_cases hc : c = '\n'
    · subst hc
      simp [newGo, linesGo, ih, utf8Size_lf]
      congr 2; omega
    · simp [newGo, linesGo, hc, ih]
      congr 2; omega

theorem linesGo_length (p : List Char) (cur : Line) (col : Nat) :
    (linesGo p cur col).length = p.count '\n' := by
  induction p generalizing cur col with
  | nil => rfl
  | cons c p ih =>
    by_cases hc : c = '\n'
    · subst hc; simp [linesGo, ih]
    · simp [linesGo, hc, ih]

/-- Empty or ending in a line feed. -/
def Complete (p : List Char) : Prop := p = [] ∨ ∃ q, p = q ++ ['\n']

/-- Empty or starting with a line feed. -/
def AtEol (w : List Char) : Prop := w = [] ∨ ∃ q, w = '\n' :: q

theorem new_complete (p w : List Char) (hp : Complete p) :
    new (p ++ w) = linesGo p { start := 0, wide := [] } 0 ++
      newGo w { start := size p, wide := [] } 0 := by
  rcases hp with rfl | ⟨q, rfl⟩
  · simp [new, linesGo]
  · simp [new, newGo_append_nl, utf8Size_lf]

theorem newGo_head (w : List Char) (hw : AtEol w) (cur : Line) (col : Nat) :
    (newGo w cur col)[0]? = some cur := by
  rcases hw with rfl | ⟨q, rfl⟩ <;> simp [newGo]

/-- The line containing the end of `p ++ u`. -/
theorem new_getLine (p u v w : List Char) (hp : Complete p) (hu : '\n' ∉ u) (hv : '\n' ∉ v)
    (hw : AtEol w) :
    (new (p ++ (u ++ (v ++ w))))[p.count '\n']? =
      some { start := size p, wide := wideOf 0 (u ++ v) } := by
  rw [new_complete p _ hp, List.getElem?_append_right (by simp [linesGo_length])]
  simp only [linesGo_length, Nat.sub_self]
  rw [show u ++ (v ++ w) = (u ++ v) ++ w by simp, newGo_seg (u ++ v) w (by simp [hu, hv])]
  simp [newGo_head w hw]

theorem split_last_line (a : List Char) : ∃ p u, a = p ++ u ∧ Complete p ∧ '\n' ∉ u := by
  induction a with
  | nil => exact ⟨[], [], rfl, .inl rfl, by simp⟩
  | cons c a ih =>
    obtain ⟨p, u, rfl, hp, hu⟩ := ih
    rcases hp with rfl | ⟨q, rfl⟩
    · by_cases hc : c = '\n'
      · subst hc; exact ⟨['\n'], u, rfl, .inr ⟨[], rfl⟩, hu⟩
      · exact ⟨[], c :: u, rfl, .inl rfl, by simp [hu]; exact fun h => hc h.symm⟩
    · exact ⟨c :: q ++ ['\n'], u, by simp, .inr ⟨c :: q, rfl⟩, hu⟩

theorem split_first_line (b : List Char) : ∃ v w, b = v ++ w ∧ '\n' ∉ v ∧ AtEol w := by
  induction b with
  | nil => exact ⟨[], [], rfl, by simp, .inl rfl⟩
  | cons c b ih =>
    by_cases hc : c = '\n'
    · subst hc; exact ⟨[], '\n' :: b, rfl, by simp, .inr ⟨b, rfl⟩⟩
    · obtain ⟨v, w, rfl, hv, hw⟩ := ih
      exact ⟨c :: v, w, rfl, by simp [hv]; exact fun h => hc h.symm, hw⟩

theorem posOf_append (enc : Encoding) (a b : List Char) :
    posOf enc (a ++ b) = b.foldl (advance enc) (posOf enc a) := by
  simp [posOf]

theorem foldl_advance_seg (enc : Encoding) (u : List Char) (hu : '\n' ∉ u) (q : Pos) :
    u.foldl (advance enc) q = { line := q.line, character := q.character + width enc u } := by
  induction u generalizing q with
  | nil => simp
  | cons c u ih =>
    have hc : c ≠ '\n' := fun h => hu (by simp [h])
    have hu' : '\n' ∉ u := fun h => hu (by simp [h])
    simp only [List.foldl_cons]
    rw [ih hu']
    simp [advance, hc, Nat.add_assoc]

theorem foldl_advance_line (enc : Encoding) (u : List Char) (q : Pos) :
    (u.foldl (advance enc) q).line = q.line + u.count '\n' := by
  induction u generalizing q with
  | nil => simp
  | cons c u ih =>
    simp only [List.foldl_cons, ih]
    by_cases hc : c = '\n'
    · subst hc; simp [advance]; omega
    · simp [advance, hc]

theorem posOf_complete (enc : Encoding) (p : List Char) (hp : Complete p) :
    posOf enc p = { line := p.count '\n', character := 0 } := by
  rcases hp with rfl | ⟨q, rfl⟩
  · rfl
  · have := foldl_advance_line enc (q ++ ['\n']) { line := 0, character := 0 }
    simp only [posOf] at *
    simp only [List.foldl_append, List.foldl_cons, List.foldl_nil, advance] at *
    simp at this ⊢
    exact this

theorem posOf_split (enc : Encoding) (p u : List Char) (hp : Complete p) (hu : '\n' ∉ u) :
    posOf enc (p ++ u) = { line := p.count '\n', character := width enc u } := by
  rw [posOf_append, posOf_complete enc p hp, foldl_advance_seg enc u hu]
  simp

theorem posOf_line (enc : Encoding) (a : List Char) : (posOf enc a).line = a.count '\n' := by
  simpa [posOf] using foldl_advance_line enc a { line := 0, character := 0 }

/-! ## Column conversion -/

theorem utf8Size_le (c : Char) : c.utf8Size ≤ 4 := Char.utf8Size_le_four c

theorem wideLen_eq_units (enc : Encoding) (c : Char) : wideLen enc c.utf8Size = units enc c := by
  cases enc
  · rfl
  · simp only [wideLen, units, Char.toNat]
    have h : c.utf8Size = if c.val.toNat ≤ 127 then 1 else if c.val.toNat ≤ 2047 then 2
        else if c.val.toNat ≤ 65535 then 3 else 4 := by
      rfl
    rw [h]
    repeat' split
    all_goals omega
  · rfl

theorem units_le (enc : Encoding) (c : Char) : units enc c ≤ c.utf8Size := by
  have := Char.utf8Size_pos c
  cases enc
  · exact Nat.le_refl _
  · rw [← wideLen_eq_units]; simp only [wideLen]; split <;> omega
  · exact this

theorem units_pos (enc : Encoding) (c : Char) : 0 < units enc c := by
  have := Char.utf8Size_pos c
  cases enc
  · exact this
  · rw [← wideLen_eq_units]; simp only [wideLen]; split <;> omega
  · exact Nat.one_pos

theorem units_ascii (enc : Encoding) (c : Char) (h : c.utf8Size = 1) : units enc c = 1 := by
  have := units_le enc c; have := units_pos enc c; omega

theorem width_le (enc : Encoding) (u : List Char) : width enc u ≤ size u := by
  induction u with
  | nil => simp
  | cons c u ih => have := units_le enc c; simp; omega

theorem wideOf_start_ge (k : Nat) (v : List Char) : ∀ c ∈ wideOf k v, k ≤ c.start ∧ c.start < c.stop := by
  induction v generalizing k with
  | nil => simp [wideOf]
  | cons x v ih =>
    intro c hc
    have hp := Char.utf8Size_pos x
    unfold wideOf at hc
    split at hc
    · have := ih _ c hc; omega
    · simp at hc
      rcases hc with rfl | hc
      · simp; omega
      · have := ih _ c hc; omega

theorem toUtf8Go_wideOf (enc : Encoding) (k : Nat) (u v : List Char) :
    toUtf8Go enc (wideOf k (u ++ v)) (k + width enc u) = k + size u := by
  induction u generalizing k with
  | nil =>
    simp only [List.nil_append, width_nil, size_nil, Nat.add_zero]
    cases h : wideOf k v with
    | nil => rfl
    | cons c cs =>
      have := wideOf_start_ge k v c (by simp [h])
      simp only [toUtf8Go]
      rw [if_neg (by omega)]
  | cons x u ih =>
    have hp := Char.utf8Size_pos x
    by_cases h1 : x.utf8Size = 1
    · have := ih (k + 1)
      simp [wideOf, h1, units_ascii enc x h1]
      rw [show k + (1 + width enc u) = k + 1 + width enc u by omega, this]; omega
    · have hu := units_pos enc x
      have hl := units_le enc x
      have := ih (k + x.utf8Size)
      simp only [List.cons_append, wideOf, h1, if_false, toUtf8Go, width_cons, size_cons]
      rw [if_pos (by omega)]
      simp only [Nat.add_sub_cancel_left, wideLen_eq_units]
      rw [show k + (units enc x + width enc u) + (x.utf8Size - units enc x)
        = k + x.utf8Size + width enc u by omega, this]
      omega

theorem toWideGo_wideOf (enc : Encoding) (k r : Nat) (u v : List Char) :
    toWideGo enc (k + size u) (wideOf k (u ++ v)) (r + size u) = r + width enc u := by
  induction u generalizing k r with
  | nil =>
    simp only [List.nil_append, width_nil, size_nil, Nat.add_zero]
    cases h : wideOf k v with
    | nil => rfl
    | cons c cs =>
      have := wideOf_start_ge k v c (by simp [h])
      simp only [toWideGo]
      rw [if_neg (by omega)]
  | cons x u ih =>
    have hp := Char.utf8Size_pos x
    by_cases h1 : x.utf8Size = 1
    · have := ih (k + 1) (r + 1)
      simp [wideOf, h1, units_ascii enc x h1]
      rw [show k + (1 + size u) = k + 1 + size u by omega,
        show r + (1 + size u) = r + 1 + size u by omega, this]; omega
    · have hl := units_le enc x
      have := ih (k + x.utf8Size) (r + units enc x)
      simp only [List.cons_append, wideOf, h1, if_false, toWideGo, width_cons, size_cons]
      rw [if_pos (by omega)]
      simp only [Nat.add_sub_cancel_left, wideLen_eq_units]
      rw [show k + (x.utf8Size + size u) = k + x.utf8Size + size u by omega,
        show r + (x.utf8Size + size u) - (x.utf8Size - units enc x)
        = r + units enc x + size u by omega, this]
      omega

theorem width_utf8 (u : List Char) : width .utf8 u = size u := rfl

/-! ## Offsets -/

theorem offset_posOf (enc : Encoding) (a b : List Char) :
    offsetFromPosition enc (new (a ++ b)) (posOf enc a) = some (size a) := by
  obtain ⟨p, u, rfl, hp, hu⟩ := split_last_line a
  obtain ⟨v, w, rfl, hv, hw⟩ := split_first_line b
  have hget := new_getLine p u v w hp hu hv hw
  rw [posOf_split enc p u hp hu]
  simp only [List.append_assoc] at *
  have h8 := toUtf8Go_wideOf enc 0 u v
  simp at h8
  cases enc
  · simp [offsetFromPosition, lineColFromPosition, hget, width_utf8]
  · simp [offsetFromPosition, lineColFromPosition, hget, wideAt, h8]
  · simp [offsetFromPosition, lineColFromPosition, hget, wideAt, h8]

theorem linesGo_start_le (p : List Char) (cur : Line) (col : Nat) :
    ∀ l ∈ linesGo p cur col, l.start ≤ cur.start + col + size p := by
  induction p generalizing cur col with
  | nil => simp [linesGo]
  | cons c p ih =>
    by_cases hc : c = '\n'
    · subst hc
      intro l hl
      simp [linesGo] at hl
      rcases hl with rfl | hl
      · omega
      · have := ih _ _ l hl; simp [utf8Size_lf] at *; omega
    · intro l hl
      simp only [linesGo, hc, if_false] at hl
      have := ih _ _ l hl; simp at *; omega

theorem takeWhile_append_all {α} (f : α → Bool) (a b : List α) (h : ∀ x ∈ a, f x = true) :
    (a ++ b).takeWhile f = a ++ b.takeWhile f := by
  induction a with
  | nil => rfl
  | cons x a ih => simp [List.takeWhile, h x (by simp), ih (fun y hy => h y (by simp [hy]))]

theorem lineCol_new (p u v w : List Char) (hp : Complete p) (hu : '\n' ∉ u) (hv : '\n' ∉ v)
    (hw : AtEol w) :
    lineCol (new (p ++ (u ++ (v ++ w)))) (size p + size u) =
      some { line := p.count '\n', character := size u } := by
  have hget := new_getLine p u v w hp hu hv hw
  have hlen : ((new (p ++ (u ++ (v ++ w)))).takeWhile
      fun l => decide (l.start ≤ size p + size u)).length = p.count '\n' + 1 := by
    rw [new_complete p _ hp, takeWhile_append_all]
    · rw [show u ++ (v ++ w) = (u ++ v) ++ w by simp, newGo_seg (u ++ v) w (by simp [hu, hv])]
      rcases hw with rfl | ⟨q, rfl⟩
      · simp [newGo, linesGo_length, List.takeWhile]
      · have : ∀ q cur col, cur.start > size p + size u →
            (newGo q cur col).takeWhile (fun l => decide (l.start ≤ size p + size u)) = [] := by
          intro q
          induction q with
          | nil =>
            intro cur col h
            have : ¬ cur.start ≤ size p + size u := by omega
            simp [newGo, List.takeWhile, this]
          | cons c q ih =>
            intro cur col h
            simp only [newGo]
            split
            · have : ¬ cur.start ≤ size p + size u := by omega
              simp [List.takeWhile, this]
            · exact ih _ _ (by simpa using h)
        simp [newGo, linesGo_length, List.takeWhile]
        rw [this _ _ _ (by simp; omega)]
    · intro l hl
      have := linesGo_start_le p _ _ l hl
      simp at this ⊢; omega
  unfold lineCol
  rw [hlen]
  simp [hget]

theorem position_size (enc : Encoding) (a b : List Char) :
    positionFromOffset enc (new (a ++ b)) (size a) = some (posOf enc a) := by
  obtain ⟨p, u, rfl, hp, hu⟩ := split_last_line a
  obtain ⟨v, w, rfl, hv, hw⟩ := split_first_line b
  have hget := new_getLine p u v w hp hu hv hw
  have hlc := lineCol_new p u v w hp hu hv hw
  rw [posOf_split enc p u hp hu]
  simp only [List.append_assoc, size_append] at *
  have h8 := toWideGo_wideOf enc 0 0 u v
  simp at h8
  cases enc
  · simp [positionFromOffset, positionFromLineCol, hlc, width_utf8]
  · simp [positionFromOffset, positionFromLineCol, hlc, hget, wideAt, h8]
  · simp [positionFromOffset, positionFromLineCol, hlc, hget, wideAt, h8]

theorem posOf_lt (enc : Encoding) (a m : List Char) (hm : m ≠ []) :
    (posOf enc a).lt (posOf enc (a ++ m)) := by
  by_cases h : '\n' ∈ m
  · left
    simp [posOf_line, List.count_append]
    exact h
  · right
    rw [posOf_append, foldl_advance_seg enc m h]
    cases m with
    | nil => exact absurd rfl hm
    | cons c m => have := units_pos enc c; simp; omega

/-! ## Which lines an edit can affect -/

/-- A line's start offset is the size of a complete prefix with that many line feeds. -/
theorem new_get_prefix (t : List Char) (s : Nat) (ln : Line) (h : (new t)[s]? = some ln) :
    ∃ p w, t = p ++ w ∧ p.count '\n' = s ∧ size p = ln.start := by
  have : ∀ (t : List Char) (cur : Line) (col s : Nat), (newGo t cur col)[s]? = some ln → 
      (s = 0 ∧ ln.start = cur.start) ∨
      ∃ p w, t = p ++ w ∧ p.count '\n' = s ∧ cur.start + col + size p = ln.start := by
    intro t
    induction t with
    | nil =>
      intro cur col s h
      cases s with
      | zero => simp [newGo] at h; simp [h]
      | succ s => simp [newGo] at h
    | cons c t ih =>
      intro cur col s h
      by_cases hc : c = '\n'
      · subst hc
        simp only [newGo, if_true] at h
        cases s with
        | zero => simp at h; simp [h]
        | succ s =>
          simp at h
          rcases ih _ _ _ h with ⟨rfl, h2⟩ | ⟨p, w, rfl, h2, h3⟩
          · exact .inr ⟨['\n'], t, rfl, by simp, by simp [utf8Size_lf]; simp at h2; omega⟩
          · exact .inr ⟨'\n' :: p, w, rfl, by simp [h2], by simp [utf8Size_lf]; simp at h3; omega⟩
      · simp only [newGo, hc, if_false] at h
        rcases ih _ _ _ h with ⟨rfl, h2⟩ | ⟨p, w, rfl, h2, h3⟩
        · exact .inl ⟨rfl, h2⟩
        · exact .inr ⟨c :: p, w, rfl, by simp [hc, h2], by simp; simp at h3; omega⟩
  rcases this t _ _ _ h with ⟨rfl, h2⟩ | ⟨p, w, h1, h2, h3⟩
  · exact ⟨[], t, rfl, rfl, by simp at h2; simp [h2]⟩
  · exact ⟨p, w, h1, h2, by simpa using h3⟩

/-- Lines finished within a common prefix are the same. -/
theorem new_agree (x y z : List Char) (i : Nat) (hi : i < x.count '\n') :
    (new (x ++ y))[i]? = (new (x ++ z))[i]? := by
  obtain ⟨p, u, rfl, hp, hu⟩ := split_last_line x
  have hc : (p ++ u).count '\n' = p.count '\n' := by
    rw [List.count_append, List.count_eq_zero.mpr hu]; rfl
  rw [hc] at hi
  simp only [List.append_assoc]
  rw [new_complete p _ hp, new_complete p _ hp,
    List.getElem?_append_left (by simpa [linesGo_length] using hi),
    List.getElem?_append_left (by simpa [linesGo_length] using hi)]

end Verif.LineIndex
