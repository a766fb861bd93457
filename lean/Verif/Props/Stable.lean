import Verif.Lemmas.StableFile
import Verif.Lemmas.PrintsList
import Verif.Lemmas.FormatRaw
import Mathlib.SetTheory.Cardinal.Order

/-!
# C56: formatting a formatted file changes nothing
-/

namespace Verif.Format
open Verif.Syntax Ex

/-- C56, for files without comments: let `els` be a layout of the formatted file, and `y` what R reads in
its text. Then `els` is a layout of `y` as well, and `y` has no layouts that the source does not have.
So the text is formatted to itself, unless the printer chooses a layout for `y` that was available the first time,
too. The settings ask for persistent line breaks, and list no function that is called. -/
theorem C56_again_partial (o : Opts) (x y : Root) (els : List El) (hper : o.persistent = true)
    (hc : x.sourceComments = []) (hg : x.es.gram = true) (ho : x.attach.es.ordinary o = true)
    (hcl : x.attach.es.clear o = true)
    (h : Prints .expanded 0 (fmtRoot o x.attach) els) (hy : Rereads (emit els) y) :
    Prints .expanded 0 (fmtRoot o y.attach) els ∧
    ∀ els', Prints .expanded 0 (fmtRoot o y.attach) els' → Prints .expanded 0 (fmtRoot o x.attach) els' := by
  have hA := again_root hper (attach_free hc).1 (attach_free hc).2 ho ((grams_annotate _ _ _ _).trans hg) hcl
    (by rw [attach_tokens]; exact trivia_free hc) h hy.back
  exact ⟨hA.prints, fun els' h' => hA.refines .expanded 0 els' nofun h'⟩

/-- C56, for files without comments: a printer whose choice does not depend on the layouts that it does not
choose prints what is read in a formatted file as it is. -/
theorem C56_idempotent_partial (o : Opts) (x y : Root) (pick : Doc → List El) (hp : Chooses pick)
    (hk : Consistent pick) (hper : o.persistent = true) (hc : x.sourceComments = [])
    (hg : x.es.gram = true) (ho : x.attach.es.ordinary o = true) (hcl : x.attach.es.clear o = true)
    (hy : Rereads (emit (pick (fmtRoot o x.attach))) y) :
    render (emit (pick (fmtRoot o y.attach))) = render (emit (pick (fmtRoot o x.attach))) := by
  have h := hp _ (Doc.solid.prints (fmtRoot_solid o x.attach) .expanded 0)
  have h1 := C56_again_partial o x y _ hper hc hg ho hcl h hy
  rw [hk _ _ h1.2 h1.1]

/-- There are such printers: one that chooses the first layout in some order. -/
theorem C56_printer_exists : ∃ pick, Chooses pick ∧ Consistent pick := by
  obtain ⟨_, _⟩ := exists_wellFoundedLT (List El)
  classical
  let best : Doc → List El := fun d =>
    if h : ∃ x, Prints .expanded 0 d x then wellFounded_lt.min {x | Prints .expanded 0 d x} h else []
  have key : ∀ d (h : ∃ x, Prints .expanded 0 d x),
      best d = wellFounded_lt.min {x | Prints .expanded 0 d x} h := fun d h => dif_pos h
  refine ⟨best, fun d h => ?_, fun d d' hs h => ?_⟩
  · rw [key d h]
    exact wellFounded_lt.min_mem {x | Prints .expanded 0 d x} h
  · have hd' : ∃ x, Prints .expanded 0 d' x := ⟨_, h⟩
    have hd : ∃ x, Prints .expanded 0 d x := ⟨_, hs _ h⟩
    have h1 := wellFounded_lt.min_mem {x | Prints .expanded 0 d' x} hd'
    rw [← key d' hd'] at h1
    have h2 : ¬ best d' < best d := by
      rw [key d hd]
      exact wellFounded_lt.not_lt_min {x | Prints .expanded 0 d x} (hs _ h1)
    have h3 : ¬ best d < best d' := by
      rw [key d' hd']
      exact wellFounded_lt.not_lt_min {x | Prints .expanded 0 d' x} h
    exact le_antisymm (not_lt.1 h3) (not_lt.1 h2)

/-! ## Examples -/

/-- `if (a) b else c`, and `x = f(1,` `g(2))` on two lines, the first argument on the second. -/
def loose : Root := file
  [.itee {} (tk .ifKw "if") (ts .lParen "(") (Ex.id (tk .ident "a")) (tk .rParen ")")
     (Ex.id (ts .ident "b")) {} (ts .elseKw "else") (Ex.id (ts .ident "c")),
   .binary {} (Ex.id (tn .ident "x")) (ts .equal "=")
     (.call {} .call (Ex.id (ts .ident "f")) {} (tk .lParen "(")
       (.cons (.val {} (num (tn .rDoubleLiteral "1"))) (tk .comma ",")
         (.last (.val {} (.call {} .call (Ex.id (ts .ident "g")) {} (tk .lParen "(")
           (.last (.val {} (num (tk .rDoubleLiteral "2")))) (tk .rParen ")")))))
       (tk .rParen ")"))]

/-- What is read in the formatted text. -/
def tight : Root := file
  [.itee {} (tk .ifKw "if") (ts .lParen "(") (Ex.id (tk .ident "a")) (tk .rParen ")")
     (.braced {} (ts .lCurly "{") (list [Ex.id (tn .ident "b")]) (tn .rCurly "}"))
     {} (ts .elseKw "else") (.braced {} (ts .lCurly "{") (list [Ex.id (tn .ident "c")]) (tn .rCurly "}")),
   .binary {} (Ex.id (tn .ident "x")) (ts .assign "<-")
     (.call {} .call (Ex.id (ts .ident "f")) {} (tk .lParen "(")
       (.cons (.val {} (num (tn .rDoubleLiteral "1"))) (tk .comma ",")
         (.last (.val {} (.call {} .call (Ex.id (tn .ident "g")) {} (tk .lParen "(")
           (.last (.val {} (num (tk .rDoubleLiteral "2")))) (tk .rParen ")")))))
       (tn .rParen ")"))]

/-- A layout of `loose`. -/
def looseEls : List El := lay true false false .expanded 0 (fmtRoot (opts .arrow []) loose.attach)

example : render (emit looseEls) =
    tx "if (a) {\n\tb\n} else {\n\tc\n}\nx <- f(\n\t1,\n\tg(2)\n)\n" := by decide +kernel
example : Prints .expanded 0 (fmtRoot (opts .arrow []) loose.attach) looseEls :=
  (mem_layouts (by decide +kernel)).1 (by decide +kernel)
example : Rereads (emit looseEls) tight :=
  ⟨by decide +kernel, by decide +kernel, by decide +kernel, by decide +kernel⟩
example : loose.sourceComments = [] ∧ loose.es.gram = true ∧
    loose.attach.es.ordinary (opts .arrow []) = true ∧ loose.attach.es.clear (opts .arrow []) = true := by
  decide +kernel

/-- There are other layouts. -/
example : ∃ z ∈ layouts .expanded 0 (fmtRoot (opts .arrow []) loose.attach), z ≠ looseEls := by
  decide +kernel

/-! ## Without persistent line breaks -/

/-- `opts`, line breaks are not persistent. -/
def ignoring : Opts := { opts .arrow [] with persistent := false }

/-- `f(`, an empty line, `a)`. -/
def blankFirst : Root := file
  [.call {} .call (Ex.id (tk .ident "f")) {} (tk .lParen "(")
    (.last (.val {} (Ex.id ⟨.ident, [⟨.newline, [10]⟩, ⟨.newline, [10]⟩], tx "a", []⟩))) (tk .rParen ")")]

/-- What is read in the formatted text. -/
def blankGone : Root := file
  [.call {} .call (Ex.id (tk .ident "f")) {} (tk .lParen "(")
    (.last (.val {} (Ex.id (tn .ident "a")))) (tn .rParen ")")]

/-- C56 fails if line breaks are not persistent: an empty line in front of the first argument puts the
arguments on lines of their own, but the empty line is not printed; so the second time they may be
put on one line again. -/
theorem C56_blank_first_unstable : ∃ els els',
    Prints .expanded 0 (fmtRoot ignoring blankFirst.attach) els ∧
    (∀ z, Prints .expanded 0 (fmtRoot ignoring blankFirst.attach) z → z = els) ∧
    render (emit els) = tx "f(\n\ta\n)\n" ∧ Rereads (emit els) blankGone ∧
    Prints .expanded 0 (fmtRoot ignoring blankGone.attach) els' ∧ render (emit els') = tx "f(a)\n" := by
  refine ⟨lay true false false .expanded 0 (fmtRoot ignoring blankFirst.attach),
    lay true false false .expanded 0 (fmtRoot ignoring blankGone.attach),
    (mem_layouts (by decide +kernel)).1 (by decide +kernel), ?_, by decide +kernel,
    ⟨by decide +kernel, by decide +kernel, by decide +kernel, by decide +kernel⟩,
    (mem_layouts (by decide +kernel)).1 (by decide +kernel), by decide +kernel⟩
  intro z hz
  have h := (mem_layouts (by decide +kernel)).2 hz
  have h1 : ∀ w ∈ layouts .expanded 0 (fmtRoot ignoring blankFirst.attach),
      w = lay true false false .expanded 0 (fmtRoot ignoring blankFirst.attach) := by decide +kernel
  exact h1 z h

end Verif.Format
