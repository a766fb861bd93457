import Verif.Props.Layout
import Verif.Lemmas.InlineAll
import Verif.Lemmas.InlineChunk

/-!
# C62: spaces
-/

namespace Verif.Format
open Verif.Syntax Ex

theorem printSuffixes_started : ∀ (xs : List (Option Bool × Nat × List Byte)) (s : PState), s.started = true →
    (printSuffixes s xs).2.started = true
  | [], s, h => h
  | (none, i, t) :: xs, s, h => printSuffixes_started xs _ rfl
  | (some e, i, t) :: xs, s, h => printSuffixes_started xs _ rfl

/-- A line break after text is printed. -/
theorem run_breaks : ∀ (x : List El) (s : PState), s.started = true → x.any El.isNl = true → El.rnl ∈ (run s x).1
  | [], s, _, h => by cases h
  | a :: x, s, hs, h => by
    rw [run]
    rw [List.any_cons, Bool.or_eq_true] at h
    by_cases ha : a.isNl = true
    · refine List.mem_append_left _ ?_
      cases a with
      | nl e i =>
        have hf : (flush s).2.started = true := printSuffixes_started _ _ hs
        simp [printEl, printNl, hf]
      | rnl => simp [printEl, printText]
      | _ => cases ha
    · refine List.mem_append_right _ (run_breaks x _ ?_ (h.resolve_left ha))
      cases a <;> first | exact hs | rfl | exact absurd rfl ha

theorem endsClean_bare : (e : Expr) → e.comments = [] → e.endsClean = true
  | .unary a p e, h => by
    simp only [Expr.comments, List.append_eq_nil_iff] at h
    have := comments_ann e h.2
    rw [Expr.endsClean, Ann.eq_nil h.1, Ann.eq_nil this, endsClean_bare e h.2]
    rfl
  | .binary a x p y, h => by
    simp only [Expr.comments, List.append_eq_nil_iff] at h
    rw [Expr.endsClean, Ann.eq_nil h.1.1, endsClean_bare y h.2]
    rfl
  | .sel a k x p y, h => by
    simp only [Expr.comments, List.append_eq_nil_iff] at h
    rw [Expr.endsClean, Ann.eq_nil h.1.1, endsClean_bare y h.2]
    rfl
  | .func a kw pa l items r b, h => by
    simp only [Expr.comments, List.append_eq_nil_iff] at h
    rw [Expr.endsClean, Ann.eq_nil h.1.1.1, endsClean_bare b h.2]
    rfl
  | .ite a kw l c r b, h => by
    simp only [Expr.comments, List.append_eq_nil_iff] at h
    rw [Expr.endsClean, Ann.eq_nil h.1.1, endsClean_bare b h.2]
    rfl
  | .itee a kw l c r t ea el b, h => by
    simp only [Expr.comments, List.append_eq_nil_iff] at h
    rw [Expr.endsClean, Ann.eq_nil h.1.1.1.1, Ann.eq_nil h.1.2, endsClean_bare b h.2]
    rfl
  | .for_ a kw l v i s r b, h => by
    simp only [Expr.comments, List.append_eq_nil_iff] at h
    rw [Expr.endsClean, Ann.eq_nil h.1.1.1, endsClean_bare b h.2]
    rfl
  | .while_ a kw l c r b, h => by
    simp only [Expr.comments, List.append_eq_nil_iff] at h
    rw [Expr.endsClean, Ann.eq_nil h.1.1, endsClean_bare b h.2]
    rfl
  | .repeat_ a kw b, h => by
    simp only [Expr.comments, List.append_eq_nil_iff] at h
    rw [Expr.endsClean, Ann.eq_nil h.1, endsClean_bare b h.2]
    rfl
  | .braced .., _ => rfl
  | .atom a k t, h => by have := Ann.eq_nil h; simp [Expr.endsClean, Expr.ann, this]
  | .str a p c l, h => by have := Ann.eq_nil h; simp [Expr.endsClean, Expr.ann, this]
  | .paren a l e r, h => by
    simp only [Expr.comments, List.append_eq_nil_iff] at h
    have := Ann.eq_nil h.1; simp [Expr.endsClean, Expr.ann, this]
  | .call a k f aa l items r, h => by
    simp only [Expr.comments, List.append_eq_nil_iff] at h
    have := Ann.eq_nil h.1.1.1; simp [Expr.endsClean, Expr.ann, this]

/-- A part in a layout. -/
theorem Always.prints {P : Doc → Prop} : ∀ {d : Doc}, Always P d → ∀ {m : PMode} {i : Nat} {x : List El},
    Prints m i d x → ∃ d' m' i' y, P d' ∧ Prints m' i' d' y ∧ y <:+: x := by
  have self : ∀ d, P d → ∀ {m : PMode} {i : Nat} {x : List El}, Prints m i d x →
      ∃ d' m' i' y, P d' ∧ Prints m' i' d' y ∧ y <:+: x :=
    fun d hd m i x hx => ⟨d, m, i, x, hd, hx, ⟨[], [], by simp⟩⟩
  intro d
  induction d with
  | cat a b iha ihb =>
    intro h m i x hx
    rcases h with h | h | h
    · exact self _ h hx
    · obtain ⟨u, v, rfl, hu, -⟩ := hx
      obtain ⟨d', m', i', y, h1, h2, h3⟩ := iha h hu
      exact ⟨d', m', i', y, h1, h2, infix_left _ h3⟩
    · obtain ⟨u, v, rfl, -, hv⟩ := hx
      obtain ⟨d', m', i', y, h1, h2, h3⟩ := ihb h hv
      exact ⟨d', m', i', y, h1, h2, infix_right _ h3⟩
  | indent d ih =>
    intro h m i x hx
    rcases h with h | h
    · exact self _ h hx
    · exact ih h hx
  | group ex d ih =>
    intro h m i x hx
    rcases h with h | h
    · exact self _ h hx
    · obtain ⟨m', -, hx⟩ := hx
      exact ih h hx
  | noSoft d ih =>
    intro h m i x hx
    rcases h with h | h
    · exact self _ h hx
    · exact ih h hx.1
  | alt a b iha ihb =>
    intro h m i x hx
    rcases h with h | ⟨ha, hb⟩
    · exact self _ h hx
    · rcases hx with hx | hx
      · exact iha ha hx
      · exact ihb hb hx
  | _ =>
    intro h m i x hx
    exact self _ h hx

/-- C62: wherever in a file (without skip and table directives) there is an expression without comments, what
is printed for it either contains line breaks (other than those of strings), or it is `Expr.inline`: the
spaces are determined by the expression, whatever spaces there are in the source. -/
theorem C62_spaces (o : Opts) (f : Root) (els : List El)
    (hs : rootSuppressed o f.es = false) (ho : f.es.ordinary o = true)
    (h : Prints .expanded 0 (fmtRoot o f) els)
    (e : Expr) (hb : Withins e f.es) (hc : e.comments = []) :
    ∃ p pre out post, emit els = pre ++ out ++ post ∧ Statement o p e out ∧
      (oneLine out → e.inline o p = some out) := by
  obtain ⟨d', m', i, y, ⟨hoy, cx, hcx, rfl, -⟩, hy, ⟨q, w, rfl⟩⟩ := (always_root hs ho hb).prints h
  obtain ⟨ns, m, hl⟩ : ∃ ns m, Lays ns m i (fmt o cx e) y := by
    have := prints_lays _ _ _ _ hy
    cases m'
    · exact ⟨_, _, this.1 rfl⟩
    · exact ⟨_, _, this.2.1 rfl⟩
    · exact ⟨_, _, this.2.2 rfl⟩
  let p : Place := { effect := cx.effect, assign := cx.eq, elseIf := cx.braces.isSome }
  have hat : At cx p := ⟨rfl, rfl, hcx.2.imp (fun h => ⟨h, by simp [p, h]⟩) (fun h => h), fun h => by
    rw [hcx.1] at h; cases h⟩
  have hbeg := fmt_begins o e _ _ _ _ _ hl
  obtain ⟨a, r, k1, k2⟩ := begins_run hbeg (run {} q).2
  obtain ⟨⟨r', t, k3, k4⟩, -, -⟩ := stops_run (fmt_last o e cx (endsClean_bare e hc) _ _ _ _ hl) (run {} q).2
  obtain ⟨pre, post, e5⟩ := emit_part (p := q) (q := w) (out := a :: r) (w := []) (by rw [k1, List.append_nil])
  refine ⟨p, pre, a :: r, post, by simpa using e5, ?_, ?_⟩
  · refine fmt_statement (last := a :: r) hat hl ?_ ⟨⟨a, r, rfl, k2⟩, ?_, rfl⟩
    · have := printedToks_run (run {} q).2 y
      rw [k1, printedToks_append, (pending_noTok _ : printedToks _ = [])] at this
      exact this
    · rw [k1] at k3
      rcases List.eq_nil_or_concat r with rfl | ⟨r₁, b, rfl⟩
      · exact ⟨[], a, rfl, k2⟩
      · rw [List.concat_eq_append] at k3
        have : (pendingEls (run {} q).2 ++ a :: r₁) ++ [b] = r' ++ [t] := by simpa using k3
        have := (List.append_inj' this rfl).2
        obtain rfl : b = t := by simpa using this
        exact ⟨a :: r₁, b, by simp, k4⟩
  · intro hone
    have hn : y.any El.isNl = false := by
      obtain ⟨b, z, rfl, ht⟩ := hbeg
      have hpr : printEl (run {} q).2 b = printText (run {} q).2 b := by
        cases b <;> simp_all [El.isText, printEl]
      rw [run, hpr, printText_eq] at k1
      have hbr : b.isNl = false := by cases b <;> simp_all [El.isText, El.isNl]
      rw [List.any_cons, hbr, Bool.false_or, ← Bool.not_eq_true]
      intro hz
      have h1 := run_breaks z { (run {} q).2 with started := true, space := false, ind := 0, emptyLine := false } rfl hz
      rw [List.append_assoc] at k1
      have := List.append_cancel_left k1
      rw [List.singleton_append] at this
      exact hone (by rw [← this]; exact List.mem_cons_of_mem _ h1)
    obtain ⟨L, g1, rfl⟩ := fmt_lined e cx p hc hoy hcx.1 rfl _ _ _ hy hn
    have := chunk_expr e p L g1 (run {} q).2
    rw [this] at k1
    rw [g1, List.append_cancel_left k1]

/-! ## Examples -/

namespace Ex

/-- `y=f(,a,  b =x ^ 2,- z)[1 : n]`, badly spaced -/
def spacedIndex : Expr :=
  .binary {} (id (tk .ident "y")) (tk .equal "=")
    (.call {} .subset
      (.call {} .call (id (tk .ident "f")) {} (tk .lParen "(")
        (.cons (.hole {}) (tk .comma ",") (.cons (val (id (tk .ident "a"))) (tk .comma ",")
          (.cons (.named {} {} (id ⟨.ident, [⟨.whitespace, [32, 32]⟩], tx "b", []⟩) (ts .equal "=")
            (.binary {} (id (tk .ident "x")) (ts .exponentiate "^") (num (ts .rDoubleLiteral "2"))))
            (tk .comma ",") (.last (val (.unary {} (tk .minus "-") (id (ts .ident "z"))))))))
        (tk .rParen ")"))
      {} (tk .lBrack "[")
      (.last (val (.binary {} (num (tk .rDoubleLiteral "1")) (ts .colon ":") (id (ts .ident "n")))))
      (tk .rBrack "]"))

/-- `g<-if(a)b else~ c+d`, badly spaced -/
def spacedIf : Expr :=
  .binary {} (id (tn .ident "g")) (tk .assign "<-")
    (.itee {} (tk .ifKw "if") (tk .lParen "(") (id (tk .ident "a")) (tk .rParen ")") (id (tk .ident "b")) {}
      (ts .elseKw "else")
      (.unary {} (tk .tilde "~") (.binary {} (id (ts .ident "c")) (tk .plus "+") (id (tk .ident "d")))))

/-- Both. -/
def spacedProg : Root := file [spacedIndex, spacedIf]

end Ex

example : rootSuppressed (opts .arrow []) spacedProg.es = false := by decide
example : spacedProg.es.ordinary (opts .arrow []) = true := by decide
example : Prints .expanded 0 (fmtRoot (opts .arrow []) spacedProg)
    (typeset true none .expanded 0 (fmtRoot (opts .arrow []) spacedProg)) :=
  typesets_prints _ _ _ _ (typeset_typesets _ _ _ _ _ (by decide +kernel))
example : Withins spacedIndex spacedProg.es := .inl (.inl rfl)
example : spacedIndex.comments = [] := by decide
example : printed (opts .arrow []) spacedProg true none = tx (
    "y <- f(, a, b = x^2, -z)[1:n]\n" ++ "g <- if (a) b else ~ c + d\n") := by decide +kernel
example : (spacedIndex.inline (opts .arrow []) {}).map render = some (tx "y <- f(, a, b = x^2, -z)[1:n]") := by
  decide +kernel
example : (spacedIf.inline (opts .equal []) { assign := true }).map render =
    some (tx "g = if (a) b else ~ c + d") := by
  decide +kernel

end Verif.Format
