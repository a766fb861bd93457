import Verif.Lemmas.FormatEdits
import Verif.Lemmas.FormatEmit
import Verif.Lemmas.FormatLayout
import Verif.Lemmas.FormatCalm

/-!
# Formatted files
-/

namespace Verif.Format
open Verif.Syntax

variable {st : Bool} {o : Opts}

/-- Reading a formatted file. -/
theorem reads_root {x : Root} {m : Mode} {i : Nat} {els : List El}
    (hs : rootSuppressed o x.es = false) (hT : Tames st o .top {} true x.es)
    (h : Lays false m i (fmtRoot o x) els) :
    ∃ es', Rews o {} true x.es es' ∧ Reads st Nc (shapes .top .free es') Nc els := by
  unfold fmtRoot at h
  rw [hs, if_neg (by decide)] at h
  obtain ⟨u, v, rfl, hu, w, z, rfl, ⟨p, q, rfl, hp, hq⟩, y, t, rfl, hy, ht⟩ := h
  obtain ⟨es', hR, hr⟩ := (main_all (st := st) o).2 x.es {} .top true true false m i p hT
    (quiet_false _) hp
  refine ⟨es', hR, (lays_leading hu).1.pre ?_⟩
  have hq' := lays_hard (st := st) hq
  have hy' := (lays_danglingSoft (st := st) hy)
  exact (hr.post (hq'.imp any_an fun _ => Fr.nc)).post (hy'.post (lays_trailing ht _))

theorem printedToks_rawFile (ts : List Token) (eof : Token) :
    printedToks (rawFile ts eof) = ts.map outTok := by
  unfold rawFile
  rw [printedToks_append, printedToks_pieces, List.append_nil]
  induction ts with
  | nil => rfl
  | cons t ts ih =>
    rw [List.flatMap_cons, printedToks_append, printedToks_append, printedToks_append,
      printedToks_pieces, printedToks_pieces, ih]
    rfl

theorem fits_toks {ps : List (Pos × Tok)} {us : List (Bool × Tok)} (h : Fits ps us) :
    us.map Prod.snd = ps.map Prod.snd := by
  induction ps generalizing us with
  | nil => cases us with
    | nil => rfl
    | cons _ _ => cases h
  | cons p ps ih =>
    cases us with
    | nil => cases h
    | cons u us => rw [List.map_cons, List.map_cons, ih h.2.2, ← h.1]

end Verif.Format
