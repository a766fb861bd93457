import Verif.Spec.Table
import Verif.Lemmas.FormatLines

/-!
# Tables: rows, columns and padding
-/

namespace Verif.Format
open Verif.Syntax

/-! ## Columns -/

/-- The column knows of the cell. -/
structure Covers (ci : ColumnInfo) (k : ArgKind) : Prop where
  width : k.width ≤ ci.maxWidth
  value : k.width ≤ ci.maxValueWidth
  int : ∀ i f, k = .numeric i f → i ≤ ci.maxInteger
  frac : ∀ i f, k = .numeric i (some f) → ci.hasDecimal = true ∧ f ≤ ci.maxFractional

theorem Covers.add {ci : ColumnInfo} {k : ArgKind} (h : Covers ci k) (k' : ArgKind) :
    Covers (ci.add k') k := by
  obtain ⟨h1, h2, h3, h4⟩ := h
  cases k' with
  | other t =>
    exact ⟨Nat.le_trans h1 (Nat.le_max_left ..), Nat.le_trans h2 (Nat.le_max_left ..), h3, h4⟩
  | numeric i f =>
    cases f with
    | none =>
      exact ⟨Nat.le_trans h1 (Nat.le_max_left ..), Nat.le_trans h2 (Nat.le_max_left ..),
        fun i f e => Nat.le_trans (h3 i f e) (Nat.le_max_left ..), h4⟩
    | some f =>
      exact ⟨Nat.le_trans h1 (Nat.le_max_left ..), Nat.le_trans h2 (Nat.le_max_left ..),
        fun i f e => Nat.le_trans (h3 i f e) (Nat.le_max_left ..),
        fun i f e => ⟨rfl, Nat.le_trans (h4 i f e).2 (Nat.le_max_left ..)⟩⟩

theorem covers_add (ci : ColumnInfo) (k : ArgKind) : Covers (ci.add k) k := by
  cases k with
  | other t =>
    exact ⟨Nat.le_max_right .., Nat.le_max_right .., (fun _ _ e => by cases e), (fun _ _ e => by cases e)⟩
  | numeric i f =>
    cases f with
    | none =>
      exact ⟨Nat.le_max_right .., Nat.le_max_right ..,
        fun _ _ e => by cases e; exact Nat.le_max_right .., fun _ _ e => by cases e⟩
    | some f =>
      exact ⟨Nat.le_max_right .., Nat.le_max_right ..,
        fun _ _ e => by cases e; exact Nat.le_max_right ..,
        fun _ _ e => by cases e; exact ⟨rfl, Nat.le_max_right ..⟩⟩

/-- The width of all cells of a column. -/
def ColumnInfo.colWidth (ci : ColumnInfo) : Nat :=
  if ci.maxWidth = 0 then 0
  else if ci.hasDecimal then max ci.maxValueWidth (ci.maxInteger + 1 + ci.maxFractional)
  else ci.maxValueWidth

/-- Where the decimal point is. -/
def ColumnInfo.pointAt (ci : ColumnInfo) : Nat :=
  if ci.maxWidth = 0 then 0 else if ci.hasDecimal then ci.maxInteger else ci.maxValueWidth

theorem padding_sum {ci : ColumnInfo} {k : ArgKind} (h : Covers ci k) :
    (ci.padding k).1 + k.width + (ci.padding k).2 = ci.colWidth := by
  obtain ⟨h1, h2, h3, h4⟩ := h
  unfold ColumnInfo.padding ColumnInfo.colWidth
  split
  · simp only; omega
  · split
    · cases k with
      | other t => simp only [ColumnInfo.decimalPadding]; omega
      | numeric i f =>
        have h3 := h3 i f rfl
        cases f with
        | none => simp only [ColumnInfo.decimalPadding, ArgKind.width] at h1 h2 ⊢; omega
        | some f =>
          have h4 := (h4 i f rfl).2
          simp only [ColumnInfo.decimalPadding, ArgKind.width] at h1 h2 ⊢; omega
    · cases k with
      | other t => simp only [ColumnInfo.simplePadding]; omega
      | numeric i f => simp only [ColumnInfo.simplePadding]; omega

theorem padding_point {ci : ColumnInfo} {i : Nat} {f : Option Nat} (h : Covers ci (.numeric i f)) :
    (ci.padding (.numeric i f)).1 + i = ci.pointAt := by
  obtain ⟨h1, h2, h3, h4⟩ := h
  have h3 := h3 i f rfl
  unfold ColumnInfo.padding ColumnInfo.pointAt
  split
  · cases f <;> simp only [ArgKind.width] at h1 ⊢ <;> omega
  · split
    · simp only [ColumnInfo.decimalPadding]; omega
    · rename_i hd
      cases f with
      | some f => exact absurd (h4 i f rfl).1 hd
      | none => simp only [ColumnInfo.simplePadding, ArgKind.width] at h2 ⊢; omega

theorem padding_other (ci : ColumnInfo) (t : List Byte) : (ci.padding (.other t)).1 = 0 := by
  unfold ColumnInfo.padding ColumnInfo.decimalPadding ColumnInfo.simplePadding
  split
  · rfl
  · split <;> rfl

/-! ## Building the table -/

/-- Every cell of the row is known to its column. -/
def RowCovered (cols : List ColumnInfo) (r : List Cell) : Prop :=
  ∀ (j : Nat) (c : Cell), r[j]? = some c → ∃ ci, cols[j]? = some ci ∧ Covers ci c.kind

theorem growCols_get {cols : List ColumnInfo} {j k : Nat} {ci : ColumnInfo} (h : cols[k]? = some ci) :
    (growCols cols j)[k]? = some ci := by
  have hk : k < cols.length := (List.getElem?_eq_some_iff.mp h).1
  rw [growCols, List.getElem?_append_left hk, h]

theorem growCols_length (cols : List ColumnInfo) (j : Nat) : j < (growCols cols j).length := by
  simp only [growCols, List.length_append, List.length_replicate]; omega

/-- Adding a cell to a column. -/
def addCol (cols : List ColumnInfo) (j : Nat) (k : ArgKind) : List ColumnInfo :=
  (growCols cols j).modify j (fun ci => ci.add k)

theorem addCol_covers (cols : List ColumnInfo) (j : Nat) (k : ArgKind) :
    ∃ ci, (addCol cols j k)[j]? = some ci ∧ Covers ci k := by
  refine ⟨((growCols cols j)[j]'(growCols_length cols j)).add k, ?_, covers_add _ _⟩
  simp [addCol, List.getElem?_eq_getElem (growCols_length cols j)]

theorem addCol_mono {cols : List ColumnInfo} {j k : Nat} {a b : ArgKind} {ci : ColumnInfo}
    (h : cols[k]? = some ci) (hc : Covers ci a) :
    ∃ ci', (addCol cols j b)[k]? = some ci' ∧ Covers ci' a := by
  simp only [addCol, List.getElem?_modify, growCols_get h]
  by_cases hj : j = k
  · exact ⟨ci.add b, by simp [hj], hc.add b⟩
  · exact ⟨ci, by simp [hj], hc⟩

theorem RowCovered.addCol {cols : List ColumnInfo} {r : List Cell} (h : RowCovered cols r) (j : Nat)
    (k : ArgKind) : RowCovered (addCol cols j k) r := by
  intro l c hc
  obtain ⟨ci, h1, h2⟩ := h l c hc
  exact addCol_mono h1 h2

theorem RowCovered.push {cols : List ColumnInfo} {r : List Cell} (h : RowCovered cols r) (c : Cell) :
    RowCovered (Format.addCol cols r.length c.kind) (r ++ [c]) := by
  intro j d hd
  by_cases hj : j < r.length
  · rw [List.getElem?_append_left hj] at hd
    exact h.addCol _ _ j d hd
  · have hj' : j = r.length := by
      have := (List.getElem?_eq_some_iff.mp hd).1
      simp at this; omega
    subst hj'
    simp at hd
    subst hd
    exact addCol_covers _ _ _

/-- A row: only its first cell is on a new line. -/
def IsRow (r : List Cell) : Prop := r ≠ [] ∧ ∀ c ∈ r.tail, c.rowLines = 0

/-- Rows after the first one start on a new line. -/
def Heads : List (List Cell) → Prop
  | [] => True
  | r :: rs => (∀ c ∈ r.head?, 0 < c.rowLines) ∧ Heads rs

theorem Heads.append {rs : List (List Cell)} (h : Heads rs) {r : List Cell}
    (hr : ∀ c ∈ r.head?, 0 < c.rowLines) : Heads (rs ++ [r]) := by
  induction rs with
  | nil => exact ⟨hr, trivial⟩
  | cons a rs ih => exact ⟨h.1, ih h.2⟩

/-- Invariant of the loop. -/
structure Built (b : Build) (cs : List Cell) : Prop where
  all : b.rows.flatten ++ b.cur = cs
  rows : ∀ r ∈ b.rows, IsRow r
  cur : b.cur = [] ∧ b.rows = [] ∨ IsRow b.cur
  heads : Heads ((b.rows ++ [b.cur]).tail)
  cols : ∀ r ∈ b.rows ++ [b.cur], RowCovered b.cols r

theorem Built.push {b : Build} {cs : List Cell} (h : Built b cs) (c : Cell) :
    Built (b.push c) (cs ++ [c]) := by
  obtain ⟨h1, h2, h3, h4, h5⟩ := h
  unfold Build.push
  by_cases hc : c.rowLines > 0 ∧ b.cur ≠ []
  · have hcur : IsRow b.cur := by
      rcases h3 with h3 | h3
      · exact absurd h3.1 hc.2
      · exact h3
    rw [if_pos hc]
    refine ⟨by simp [← h1], ?_, .inr ⟨by simp, by simp⟩, ?_, ?_⟩
    · intro r hr
      rcases List.mem_append.mp hr with hr | hr
      · exact h2 r hr
      · rw [List.mem_singleton.mp hr]; exact hcur
    · have : ((b.rows ++ [b.cur]) ++ [[c]]).tail = (b.rows ++ [b.cur]).tail ++ [[c]] := by
        cases b.rows <;> simp
      show Heads ((b.rows ++ [b.cur] ++ [[] ++ [c]]).tail)
      rw [List.nil_append, this]
      exact h4.append (by simpa using hc.1)
    · intro r hr
      rcases List.mem_append.mp hr with hr | hr
      · exact (h5 r hr).addCol _ _
      · rw [List.mem_singleton.mp hr]
        exact RowCovered.push (r := []) (fun j c hj => by simp at hj) c
  · rw [if_neg hc]
    refine ⟨by simp [← h1], h2, .inr ⟨by simp, ?_⟩, ?_, ?_⟩
    · rcases h3 with ⟨h3, -⟩ | h3
      · simp [h3]
      · rcases hcur : b.cur with _ | ⟨a, l⟩
        · exact absurd hcur h3.1
        · intro d hd
          have hd : d ∈ l ++ [c] := by
            rw [show (b.cur ++ [c]).tail = l ++ [c] by rw [hcur]; rfl] at hd
            exact hd
          rcases List.mem_append.mp hd with hd | hd
          · exact h3.2 d (by simpa [hcur] using hd)
          · rw [List.mem_singleton.mp hd]
            have : ¬ 0 < c.rowLines := fun h => hc ⟨h, by simp [hcur]⟩
            omega
    · rcases h3 with ⟨hcur, hrows⟩ | h3
      · simp [hcur, hrows, Heads]
      · show Heads ((b.rows ++ [b.cur ++ [c]]).tail)
        cases hr : b.rows with
        | nil => simp [Heads]
        | cons a rs =>
          rw [hr] at h4
          simp only [List.cons_append, List.tail_cons] at h4 ⊢
          have hs : ∀ rs : List (List Cell), Heads (rs ++ [b.cur]) → Heads (rs ++ [b.cur ++ [c]]) := by
            intro rs
            induction rs with
            | nil =>
              rintro ⟨h, -⟩
              refine ⟨?_, trivial⟩
              rcases hcur : b.cur with _ | ⟨a, l⟩
              · exact absurd hcur h3.1
              · simpa [hcur] using h
            | cons a rs ih => rintro ⟨h, h'⟩; exact ⟨h, ih h'⟩
          exact hs rs h4
    · intro r hr
      rcases List.mem_append.mp hr with hr | hr
      · exact (h5 r (by simp [hr])).addCol _ _
      · rw [List.mem_singleton.mp hr]
        exact (h5 b.cur (by simp)).push c

theorem built_fold (cs ds : List Cell) (b : Build) (h : Built b ds) :
    Built (cs.foldl Build.push b) (ds ++ cs) := by
  induction cs generalizing b ds with
  | nil => simpa using h
  | cons c cs ih =>
    have := ih (ds ++ [c]) _ (h.push c)
    simpa using this

theorem built (cs : List Cell) : Built (cs.foldl Build.push {}) cs := by
  have := built_fold cs [] {} ⟨rfl, by simp, .inl ⟨rfl, rfl⟩, by simp [Heads], by
    intro r hr
    simp at hr
    subst hr
    intro j c hj
    simp at hj⟩
  simpa using this

/-- The rows are the cells in order. -/
theorem buildTable_flatten (cs : List Cell) : (buildTable cs).rows.flatten = cs := by
  have h := (built cs).all
  unfold buildTable
  dsimp only
  split
  · simpa using h
  · rename_i hn
    have : (cs.foldl Build.push {}).cur = [] := Classical.byContradiction hn
    rw [this] at h
    simpa using h

theorem buildTable_rows (cs : List Cell) : ∀ r ∈ (buildTable cs).rows, IsRow r := by
  have h := built cs
  unfold buildTable
  dsimp only
  split
  · rename_i hn
    intro r hr
    rcases List.mem_append.mp hr with hr | hr
    · exact h.rows r hr
    · rw [List.mem_singleton.mp hr]
      rcases h.cur with hc | hc
      · exact absurd hc.1 hn
      · exact hc
  · exact h.rows

theorem buildTable_heads (cs : List Cell) : Heads (buildTable cs).rows.tail := by
  have h := built cs
  unfold buildTable
  dsimp only
  split
  · exact h.heads
  · rename_i hn
    have hc : (cs.foldl Build.push {}).cur = [] := Classical.byContradiction hn
    rcases h.cur with hr | hr
    · simp [hr.2, Heads]
    · exact absurd hc hr.1

theorem buildTable_covered (cs : List Cell) :
    ∀ r ∈ (buildTable cs).rows, RowCovered (buildTable cs).cols r := by
  have h := built cs
  intro r hr
  refine h.cols r ?_
  unfold buildTable at hr
  dsimp only at hr
  split at hr
  · exact hr
  · exact List.mem_append_left _ hr

end Verif.Format
