import Verif.Lemmas.Typesets
import Verif.Lemmas.FormatChain

/-!
# Chains on one line
-/

namespace Verif.Format
open Verif.Syntax

theorem alongside_snoc {o : Opts} {op : Token} {y : Expr} {a : List El} (ha : Statement o {} y a) :
    ∀ (ys : List (Token × Expr)) (rest : List El), Alongside o ys rest →
    Alongside o (ys ++ [(op, y)]) (rest ++ ([.blank [32], .tok (outTok op), .blank [32]] ++ a))
  | [], rest, h => by
    rw [Alongside] at h
    subst h
    exact ⟨a, [], by simp, ha, rfl⟩
  | (op', y') :: ys, rest, h => by
    obtain ⟨b, rest', rfl, hb, hr⟩ := h
    exact ⟨b, _, by simp, hb, alongside_snoc ha ys rest' hr⟩

/-- What is printed for an expression without line breaks. -/
theorem fmt_oneLine {o : Opts} {cx : Cx} {p : Place} {e : Expr} {ns : Bool} {m : Mode} {i : Nat} {y : List El}
    (hp : At cx p) (hy : Lays ns m i (fmt o cx e) y) (hn : y.any El.isNl = false) (s : PState) :
    ∃ a, (run s y).1 = pendingEls s ++ a ∧ Statement o p e a ∧ (run s y).2.started = true ∧
      (run s y).2.ind = 0 := by
  obtain ⟨⟨r, t, h1, h6⟩, h2, h3⟩ := stops_run (fmt_stops hy hn) s
  obtain ⟨a, q, h4, h5⟩ := begins_run (fmt_begins o e _ _ _ _ _ hy) s
  refine ⟨a :: q, h4, ?_, h2, h3⟩
  refine fmt_statement (last := a :: q) hp hy ?_ ⟨⟨a, q, rfl, h5⟩, ?_, rfl⟩
  · have := printedToks_run s y
    rw [h4, printedToks_append, (pending_noTok s : printedToks _ = [])] at this
    exact this
  · rw [h4] at h1
    rcases List.eq_nil_or_concat q with rfl | ⟨q', b, rfl⟩
    · exact ⟨[], a, rfl, h5⟩
    · rw [List.concat_eq_append] at h1
      have : (pendingEls s ++ a :: q') ++ [b] = r ++ [t] := by simpa using h1
      have := (List.append_inj' this rfl).2
      obtain rfl : b = t := by simpa using this
      exact ⟨a :: q', b, by simp, h6⟩

/-- A chain printed on one line. -/
def FlatRun (o : Opts) (e : Expr) (d : Doc) : Prop :=
  ∀ ns m i s x, Lays ns m i d x → x.any El.isNl = false →
    ∃ head rest, (run s x).1 = pendingEls s ++ head ++ rest ∧ Statement o {} e.chainHead head ∧
      Alongside o e.chainTail rest ∧ (run s x).2.started = true ∧ (run s x).2.ind = 0

theorem pending_space {s : PState} (hs : s.started = true) (hi : s.ind = 0) :
    pendingEls (printSpace s) = [.blank [32]] := by
  unfold pendingEls printSpace
  rw [hi, hs]
  simp

theorem chainDoc_flat {o : Opts} {x : Expr} {cx : Cx} {b : Ann} {op : Token} {y : Expr}
    (hk : chains op.kind = true)
    (ih : FlatRun o x (fmt o { opCx cx op.kind with chain := true, aligned := cx.aligned } x)) :
    FlatRun o (.binary b x op y) (chainDoc o cx x op y) := by
  rintro ns m i s z ⟨u, v, rfl, hu, hv⟩ hn
  obtain ⟨hnu, hnv⟩ := any_split hn
  obtain ⟨head, rest, g1, g2, g3, g4, g5⟩ := ih _ _ _ s u hu hnu
  have hv' : ∃ j, Lays ns m j (chainPiece op y (fmt o (opCx cx op.kind) y)) v := by
    cases h : cx.aligned <;> rw [h] at hv <;> exact ⟨_, hv⟩
  obtain ⟨j, x1, x2, rfl, (rfl : x1 = _), x3, x4, rfl, (rfl : x3 = _), x5, x6, rfl, (rfl : x5 = _), hy⟩ := hv'
  have hl : layLine ns m j (if linesBefore y.tokens > 1 then .empty else .softOrSpace) = [.space] := by
    have := (any_split (any_split (any_split hnv).2).2).1
    revert this
    split <;> cases ns <;> cases m <;> simp [layLine, El.isNl]
  have hny := (any_split (any_split (any_split hnv).2).2).2
  rw [hl]
  rw [run_append, run_append, run_append, run_append, run_single, run_tok, run_single]
  dsimp only [printEl]
  rw [pending_space g4 g5]
  obtain ⟨a, k1, k2, k3, k4⟩ := fmt_oneLine (p := {}) (at_opCx (cx := cx) hk _ _) hy hny
    (printSpace { printSpace (run s u).2 with started := true, space := false, ind := 0, emptyLine := false })
  rw [pending_space rfl rfl] at k1
  refine ⟨head, rest ++ ([.blank [32], .tok (outTok op), .blank [32]] ++ a), ?_, ?_, ?_, k3, k4⟩
  · rw [g1, k1]
    simp
  · rw [Expr.chainHead, if_pos hk]
    exact g2
  · rw [Expr.chainTail, if_pos hk]
    exact alongside_snoc k2 _ _ g3

theorem plain_flat {o : Opts} {e : Expr} {cx : Cx} (hat : At cx {})
    (h1 : e.chainHead = e) (h2 : e.chainTail = []) : FlatRun o e (fmt o cx e) := by
  intro ns m i s z hz hn
  obtain ⟨a, k1, k2, k3, k4⟩ := fmt_oneLine hat hz hn s
  exact ⟨a, [], by simpa using k1, by rw [h1]; exact k2, by rw [h2]; rfl, k3, k4⟩

theorem flat_run (o : Opts) : ∀ (e : Expr) (cx : Cx), cx.chain = true → At cx {} →
    FlatRun o e (fmt o cx e)
  | .binary b x op y, cx, hc, hat => by
    by_cases hk : chains op.kind = true
    · have hd : fmt o cx (.binary b x op y) = chainDoc o cx x op y ⊹ trailingDoc 0 b.trailing := by
        rw [chainDoc_eq hk, wrapDoc, hc]
        simp only [Expr.isChain, chains_eq, hk, Expr.ann]
        rfl
      rw [hd]
      rintro ns m i s z ⟨u, v, rfl, hu, hv⟩ hn
      obtain ⟨head, rest, g1, g2, g3, g4, g5⟩ := chainDoc_flat hk (b := b) (y := y)
        (flat_run o x { opCx cx op.kind with chain := true, aligned := cx.aligned } rfl
          (at_opCx hk _ _)) ns m i s u hu (any_split hn).1
      rw [run_append]
      obtain ⟨l1, l2, l3⟩ := late_run v (run s u).2
        (tail_late ((DTail.trailing _ _) _ _ _ _ hv) (any_split hn).2) g4
      exact ⟨head, rest, by dsimp only; rw [l1, g1, List.append_nil], g2, g3, l2, l3.trans g5⟩
    · exact plain_flat hat (by rw [Expr.chainHead]; simp [hk]) (by rw [Expr.chainTail]; simp [hk])
  | .atom .., cx, hc, hat => plain_flat hat rfl rfl
  | .str .., cx, hc, hat => plain_flat hat rfl rfl
  | .paren .., cx, hc, hat => plain_flat hat rfl rfl
  | .braced .., cx, hc, hat => plain_flat hat rfl rfl
  | .unary .., cx, hc, hat => plain_flat hat rfl rfl
  | .sel .., cx, hc, hat => plain_flat hat rfl rfl
  | .call .., cx, hc, hat => plain_flat hat rfl rfl
  | .func .., cx, hc, hat => plain_flat hat rfl rfl
  | .ite .., cx, hc, hat => plain_flat hat rfl rfl
  | .itee .., cx, hc, hat => plain_flat hat rfl rfl
  | .for_ .., cx, hc, hat => plain_flat hat rfl rfl
  | .while_ .., cx, hc, hat => plain_flat hat rfl rfl
  | .repeat_ .., cx, hc, hat => plain_flat hat rfl rfl

end Verif.Format
