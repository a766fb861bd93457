import Verif.Spec.Inline
import Verif.Lemmas.StableHead
import Verif.Lemmas.Typesets

/-!
# Documents on one line
-/

namespace Verif.Format
open Verif.Syntax

/-! ## Pieces of text -/

theorem inLine_cons {A : Option (List El)} {As : List (Option (List El))} {L : List El} :
    inLine (A :: As) = some L ↔ ∃ a l, A = some a ∧ inLine As = some l ∧ L = a ++ l := by
  cases A with
  | none => simp [inLine]
  | some a =>
    simp only [inLine, Option.map_eq_some_iff, Option.some.injEq]
    constructor
    · rintro ⟨l, h, rfl⟩
      exact ⟨a, l, rfl, h, rfl⟩
    · rintro ⟨_, l, rfl, h, rfl⟩
      exact ⟨l, h, rfl⟩

theorem inLine_append {As Bs : List (Option (List El))} {L : List El} :
    inLine (As ++ Bs) = some L ↔ ∃ a b, inLine As = some a ∧ inLine Bs = some b ∧ L = a ++ b := by
  induction As generalizing L with
  | nil => simp [inLine, eq_comm]
  | cons A As ih =>
    rw [List.cons_append, inLine_cons]
    constructor
    · rintro ⟨a, l, rfl, h, rfl⟩
      obtain ⟨b, c, h1, h2, rfl⟩ := ih.mp h
      exact ⟨a ++ b, c, inLine_cons.mpr ⟨a, b, rfl, h1, rfl⟩, h2, by simp⟩
    · rintro ⟨a, b, h1, h2, rfl⟩
      obtain ⟨a', l, rfl, h3, rfl⟩ := inLine_cons.mp h1
      exact ⟨a', l ++ b, rfl, ih.mpr ⟨l, b, h3, h2, rfl⟩, by simp⟩

theorem inLine_nil {L : List El} : inLine [] = some L ↔ L = [] := by simp [inLine, eq_comm]

theorem inLine_single (A : Option (List El)) : inLine [A] = A := by
  cases A <;> simp [inLine]

theorem inLine_congr {As Bs Bs' : List (Option (List El))} (h : inLine Bs = inLine Bs') :
    inLine (As ++ Bs) = inLine (As ++ Bs') := by
  induction As with
  | nil => exact h
  | cons A As ih => cases A <;> simp [inLine, ih]

theorem inLine_unit (As : List (Option (List El))) : inLine (some [] :: As) = inLine As := by
  simp [inLine]

theorem inLine_nest (As Bs Cs : List (Option (List El))) :
    inLine (As ++ inLine Bs :: Cs) = inLine (As ++ (Bs ++ Cs)) := by
  refine inLine_congr (Option.ext fun L => ?_)
  rw [inLine_cons, inLine_append]

/-! ## The printer -/

/-- Spaces as the rules ask for them. -/
def asSpaces (L : List El) : List El :=
  L.map fun | .blank _ => .space | e => e

theorem asSpaces_append (A B : List El) : asSpaces (A ++ B) = asSpaces A ++ asSpaces B := List.map_append ..

/-- The printer prints the text as it is. -/
def Chunk (L : List El) : Prop :=
  ∀ s : PState, run s (asSpaces L) =
    (pendingEls s ++ L, { s with started := true, space := false, ind := 0, emptyLine := false })

theorem chunk_tok (t : Tok) : Chunk [.tok t] := fun s => run_tok s t

theorem chunk_append {A B : List El} (ha : Chunk A) (hb : Chunk B) : Chunk (A ++ B) := by
  intro s
  rw [asSpaces_append, run_append, ha, hb]
  simp [pendingEls]

theorem chunk_blank {A B : List El} (ha : Chunk A) (hb : Chunk B) : Chunk (A ++ ([.blank [32]] ++ B)) := by
  intro s
  rw [asSpaces_append, run_append, ha, asSpaces_append, run_append]
  simp only [asSpaces, List.map_cons, List.map_nil, run_single, printEl, printSpace]
  have := hb { s with started := true, space := true, ind := 0, emptyLine := false }
  simp only [asSpaces] at this
  simp only [Bool.or_true, this, pendingEls]
  simp

/-! ## Layouts without line breaks -/

/-- All layouts without line breaks are `A`. -/
def Lined (d : Doc) (A : Option (List El)) : Prop :=
  ∀ m i x, Prints m i d x → x.any El.isNl = false → ∃ L, A = some L ∧ x = asSpaces L

variable {a b d : Doc} {A : Option (List El)} {As Bs : List (Option (List El))}

theorem lined_nil : Lined .nil (some []) := by
  rintro m i x (rfl : x = _) -
  exact ⟨[], rfl, rfl⟩

theorem lined_nil' : Lined .nil (inLine []) := lined_nil

theorem lined_one (h : Lined d A) : Lined d (inLine [A]) := by rwa [inLine_single]

theorem lined_app (ha : Lined a (inLine As)) (hb : Lined b (inLine Bs)) : Lined (a ⊹ b) (inLine (As ++ Bs)) := by
  rintro m i _ ⟨x, y, rfl, hx, hy⟩ hn
  obtain ⟨hnx, hny⟩ := any_split hn
  obtain ⟨L, h1, rfl⟩ := ha _ _ _ hx hnx
  obtain ⟨M, h2, rfl⟩ := hb _ _ _ hy hny
  exact ⟨L ++ M, inLine_append.mpr ⟨L, M, h1, h2, rfl⟩, (asSpaces_append ..).symm⟩

theorem lined_cat (ha : Lined a A) (hb : Lined b (inLine Bs)) : Lined (a ⊹ b) (inLine (A :: Bs)) :=
  lined_app (As := [A]) (lined_one ha) hb

theorem lined_tok (t : Tok) : Lined (.tok t) (some [.tok t]) := by
  rintro m i x (rfl : x = _) -
  exact ⟨_, rfl, rfl⟩

theorem lined_word (t : Token) : Lined (tokDoc t) (oneTok t) := lined_tok _

theorem lined_space : Lined .space blank := by
  rintro m i x (rfl : x = _) -
  exact ⟨_, rfl, rfl⟩

theorem lined_sos : Lined (.line .softOrSpace) blank := by
  rintro m i x (rfl : x = _) hn
  refine ⟨_, rfl, ?_⟩
  cases m <;> first | rfl | exact absurd hn (by simp [lineEls, El.isNl])

theorem lined_empty (A : Option (List El)) : Lined (.line .empty) A := by
  rintro m i x (rfl : x = _) hn
  simp [lineEls, El.isNl] at hn

theorem lined_indent (h : Lined d A) : Lined (.indent d) A := fun m i x hx hn => h m (i + 1) x hx hn

theorem lined_group {ex : Bool} (h : Lined d A) : Lined (.group ex d) A := by
  rintro m i x ⟨m', -, hx⟩ hn
  exact h _ _ _ hx hn

theorem lined_noSoft (h : Lined d A) : Lined (.noSoft d) A := by
  rintro m i x ⟨hx, -⟩ hn
  exact h _ _ _ hx hn

theorem lined_alt (ha : Lined a A) (hb : Lined b A) : Lined (.alt a b) A := by
  rintro m i x (hx | hx) hn
  · exact ha _ _ _ hx hn
  · exact hb _ _ _ hx hn

theorem lined_hard (d : Doc) (A : Option (List El)) : Lined (hardBlock d) A := by
  rintro m i _ ⟨x, y, rfl, hx, (rfl : y = _)⟩ hn
  simp [lineEls, El.isNl] at hn

theorem soft_flat {m : PMode} {i : Nat} (h : (lineEls m i .soft).any El.isNl = false) :
    m ≠ .expanded ∧ lineEls m i .soft = [] := by
  cases m with
  | expanded => simp [lineEls, El.isNl] at h
  | flat => exact ⟨by simp, rfl⟩
  | bare => exact ⟨by simp, rfl⟩

theorem softBlock_flat {m : PMode} {i : Nat} {x : List El} (hx : Prints m i (softBlock d) x)
    (hn : x.any El.isNl = false) : m ≠ .expanded ∧ Prints m (i + 1) d x := by
  obtain ⟨u, v, rfl, ⟨w, y, rfl, (rfl : w = _), hy⟩, (rfl : v = _)⟩ := hx
  obtain ⟨h1, h2⟩ := soft_flat (any_split hn).2
  obtain ⟨-, h3⟩ := soft_flat (any_split (any_split hn).1).1
  rw [h2, h3]
  exact ⟨h1, by simpa using hy⟩

theorem lined_softBlock (h : Lined d A) : Lined (softBlock d) A :=
  fun _ _ _ hx hn => h _ _ _ (softBlock_flat hx hn).2 hn

theorem lined_brace {f : Bool} (h : f = true ∨ Lined d A) : Lined (braceDoc f d) A := by
  rintro m i x hx hn
  cases f with
  | true =>
    obtain ⟨u, v, rfl, -, w, y, rfl, hw, -⟩ := hx
    exact absurd (any_split (any_split hn).2).1 (by
      obtain ⟨p, q, rfl, -, (rfl : q = _)⟩ := hw
      simp [lineEls, El.isNl])
  | false =>
    have h := h.resolve_left (by simp)
    obtain ⟨u, v, rfl, hu, w, y, rfl, hw, hy⟩ := hx
    have hn' := (any_split (any_split hn).2).1
    obtain ⟨h1, h2⟩ := softBlock_flat hw hn'
    obtain rfl : u = [] := by
      rcases hu with h | h
      · exact absurd h.1 h1
      · exact h.2
    obtain rfl : y = [] := by
      rcases hy with h | h
      · exact absurd h.1 h1
      · exact h.2
    simpa using h _ _ _ h2 hn'

theorem lined_body {as f : Bool} (h : f = true ∨ Lined d A) (h' : as = true → Lined d A) : Lined (bodyDoc as f d) A := by
  unfold bodyDoc
  split
  · next has => exact h' has
  · exact lined_brace h

theorem Same.lined {d' : Doc} (hs : Same d' d) (h : Lined d A) : Lined d' A :=
  fun m i x hx hn => h m i x ((hs.prints m i x).1 hx) hn

theorem lined_node (h : Lined d A) : Lined (nodeDoc {} d .nil) A := same_node.lined h

theorem lined_wrap {o : Opts} {cx : Cx} {e : Expr} (hc : e.ann.all = []) (ho : e.ordinary o = true) (h : Lined d A) :
    Lined (wrapDoc o cx e d) A := by
  unfold wrapDoc
  rw [ordinary_suppressed ho, Ann.eq_nil hc]
  split
  · exact fun m i x hx hn => h m i x (prints_cat_nil.1 hx) hn
  · have : (if e.isBraced then Doc.nil else danglingSoft ({} : Ann).dangling) = .nil := by
      split <;> rfl
    simp only [Bool.false_eq_true, if_false, this]
    exact lined_node h

end Verif.Format
