import Verif.Model.SortedStrings

/-!
# How lists of names are shown
-/

namespace Verif.SortedStrings

/-- C13: a list of names is shown as its names with `, ` between them, and nowhere else. -/
theorem C13_display : ∀ l : List String, (display l).toList = ((l.map String.toList).intersperse ", ".toList).flatten
  | [] => rfl
  | [a] => by simp [display]
  | a :: b :: rest => by
    have ih := C13_display (b :: rest)
    simp only [display, String.toList_append, ih]
    simp

theorem before_comma {x y u v : List Char} (hx : ',' ∉ x) (hy : ',' ∉ y) (h : x ++ ',' :: u = y ++ ',' :: v) : x = y ∧ u = v := by
  induction x generalizing y with
  | nil =>
    cases y with
    | nil => simpa using h
    | cons c y => simp at h hy; exact absurd h.1 hy.1
  | cons c x ih =>
    cases y with
    | nil => simp at h; simp [h.1] at hx
    | cons d y =>
      simp only [List.cons_append, List.cons.injEq] at h
      simp only [List.mem_cons, not_or] at hx hy
      have := ih hx.2 hy.2 h.2
      exact ⟨by rw [h.1, this.1], this.2⟩

/-- C13: different lists of names, which are neither empty nor contain commas, are shown differently. -/
theorem C13_display_injective : ∀ {l k : List String}, (∀ n ∈ l, n ≠ "" ∧ ',' ∉ n.toList) → (∀ n ∈ k, n ≠ "" ∧ ',' ∉ n.toList) →
    display l = display k → l = k
  | [], [], _, _, _ => rfl
  | [], [b], _, hk, h => absurd h.symm (hk b (by simp)).1
  | [], b :: c :: k, _, _, h => by
    have := congrArg String.toList h
    simp [display] at this
  | [a], [], hl, _, h => absurd h (hl a (by simp)).1
  | a :: c :: l, [], _, _, h => by
    have := congrArg String.toList h
    simp [display] at this
  | [a], [b], _, _, h => by simpa [display] using h
  | [a], b :: c :: k, hl, _, h => by
    have h1 := congrArg String.toList h
    have h2 := (hl a (by simp)).2
    simp only [display] at h1
    rw [h1] at h2
    simp at h2
  | a :: c :: l, [b], _, hk, h => by
    have h1 := congrArg String.toList h
    have h2 := (hk b (by simp)).2
    simp only [display] at h1
    rw [← h1] at h2
    simp at h2
  | a :: c :: l, b :: d :: k, hl, hk, h => by
    have h1 := congrArg String.toList h
    simp only [display, String.toList_append, List.append_assoc] at h1
    have h2 := before_comma (u := ' ' :: (display (c :: l)).toList) (v := ' ' :: (display (d :: k)).toList)
      (hl a (by simp)).2 (hk b (by simp)).2 (by simpa [display] using h1)
    have h3 : display (c :: l) = display (d :: k) := String.toList_inj.1 (List.cons.inj h2.2).2
    rw [String.toList_inj.1 h2.1, C13_display_injective (fun n hn => hl n (by simp [hn])) (fun n hn => hk n (by simp [hn])) h3]

example : display ["fribble", "tribble"] = "fribble, tribble" ∧ (∀ n ∈ ["fribble", "tribble"], n ≠ "" ∧ ',' ∉ n.toList) := by
  decide +kernel

end Verif.SortedStrings
