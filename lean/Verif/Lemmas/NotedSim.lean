import Verif.Lemmas.NotedTree

/-!
# Comments before statements, printed like statements: the documents
-/

namespace Verif.Format
open Verif.Syntax

variable {o : Opts} {N : Nat} {q : Prop} {h : Token → Token} {d d0 e0 : Doc} {cx : Cx}

theorem sim_tok {t : Token} (hs : Short N t) : Sim N q (tokDoc t) (tokDoc t) := sim_tok' hs

theorem sim_mild {t : Token} (hh : Mild h) (hs : Short N t) : Sim N q (tokDoc t) (tokDoc (h t)) := by
  rw [hh.doc]; exact sim_tok hs

theorem sim_hush {t : Token} (hs : Short N t) : Sim N q (tokDoc t) (tokDoc (hush t)) := sim_mild mild_hush hs

theorem starts_mild {t : Token} : Starts (tokDoc t) := starts_tok

theorem sim_maybe (b : Bool) : Sim N q (maybeSpace b) (maybeSpace b) := by
  cases b
  · exact sim_nil
  · exact sim_space

theorem sim_hard {l : Bool} (h : SimL N l q d d0) : Sim N q (hardBlock d) (hardBlock d0) :=
  ((SimL.after (sim_line _) h (fun _ m i x hx => by
    have hx : x = [.nl false i] := hx
    subst hx
    simp [El.isBreak])).indent).cat (sim_line _)
theorem sim_soft (h : Sim N q d d0) : Sim N q (softBlock d) (softBlock d0) :=
  (((sim_line _).cat h).indent).cat (sim_line _)
theorem sim_spaceBlock (h : Sim N q d d0) : Sim N q (spaceBlock d) (spaceBlock d0) :=
  (((sim_line _).cat h).indent).cat (sim_line _)

theorem sim_lBrace (hN : 2 ≤ N) : Sim N q (.tok lBrace) (.tok lBrace) :=
  sim_tok' (by simp [Tok.isNote, lBrace]; omega)
theorem sim_rBrace (hN : 2 ≤ N) : Sim N q (.tok rBrace) (.tok rBrace) :=
  sim_tok' (by simp [Tok.isNote, rBrace]; omega)

theorem sim_body (hN : 2 ≤ N) (as force : Bool) (h : Sim N q d d0) :
    Sim N q (bodyDoc as force d) (bodyDoc as force d0) := by
  unfold bodyDoc
  split
  · exact h
  · unfold braceDoc
    split
    · exact (sim_lBrace hN).cat ((sim_hard h).cat (sim_rBrace hN))
    · exact (sim_lBrace hN).ifBreaks.cat ((sim_soft h).cat (sim_rBrace hN).ifBreaks)

theorem sim_sep (top : Bool) (n : Nat) : Sim N q (stmtSep top n) (stmtSep top n) := by
  unfold stmtSep
  split
  · split
    · exact (sim_line _).cat sim_rnl
    · split <;> exact sim_line _
  · split <;> exact sim_line _

theorem sep_breaks (top : Bool) (n : Nat) {m : PMode} {i : Nat} {x : List El} (h : Prints m i (stmtSep top n) x) :
    x ≠ [] ∧ ∀ e ∈ x, e.isBreak = true := by
  have key : ∀ (l : Line) (y : List El), (l = .hard ∨ l = .empty) → Prints m i (.line l) y → y ≠ [] ∧ ∀ e ∈ y, e.isBreak = true := by
    rintro l y (rfl | rfl) hy
    · have hy : y = [.nl false i] := hy
      subst hy; simp [El.isBreak]
    · have hy : y = [.nl true i] := hy
      subst hy; simp [El.isBreak]
  unfold stmtSep at h
  split at h
  · split at h
    · obtain ⟨y, z, rfl, hy, hz⟩ := h
      obtain ⟨h1, h2⟩ := key _ _ (.inr rfl) hy
      have hz : z = [.rnl] := hz
      subst hz
      refine ⟨by simp, fun e he => ?_⟩
      rcases List.mem_append.1 he with he | he
      · exact h2 e he
      · cases List.mem_singleton.1 he; rfl
    · split at h
      · exact key _ _ (.inr rfl) h
      · exact key _ _ (.inl rfl) h
  · split at h
    · exact key _ _ (.inr rfl) h
    · exact key _ _ (.inl rfl) h

/-! ## Nodes -/

theorem sim_nodeNil (h : Sim N q d d0) : Sim N q (nodeDoc {} d .nil) (nodeDoc {} d0 .nil) :=
  h.like same_node.like same_node.like

theorem like_lead {a : Ann} {g : Doc} (ht : a.trailing = []) (hg : g = .nil) :
    Like (nodeDoc a d g) (leadingDoc a.leading ⊹ d) := by
  unfold nodeDoc
  rw [ht, hg, trailingDoc]
  refine (Like.refl _).cat ⟨fun m i x => ?_, by simp [Doc.willBreak]⟩
  constructor
  · rintro ⟨u, v, rfl, hu, hv⟩
    rw [prints_nil_cat] at hv
    have hv : v = [] := hv
    subst hv
    simpa using hu
  · intro hx
    exact ⟨x, [], by simp, hx, prints_nil_cat.2 rfl⟩

/-- A node around its fields. -/
theorem sim_wrap {e e' : Expr} (hn : e.Noted o N) (hs : e'.Simple o) (hch : cx.chain = true → e.ann = {})
    (hq : q → e.ann.leading = []) (hd : Sim N q d d0) (ht : Starts d0) :
    SimL N (!e.ann.leading.isEmpty) q (wrapDoc o cx e d) (leadNotes N e.ann.leading ⊹ wrapDoc o cx e' d0) ∧ Starts (wrapDoc o cx e' d0) := by
  have hl := (same_wrap (d := d0) hs cx).like
  refine ⟨?_, ht.like hl⟩
  have h1 : Like (wrapDoc o cx e d) (leadingDoc e.ann.leading ⊹ d) := by
    unfold wrapDoc
    rw [noted_suppressed hn]
    split
    · rename_i hc
      rw [hch (by simp_all)]
      refine ⟨fun m i x => ?_, by simp [Doc.willBreak, trailingDoc, leadingDoc]⟩
      simp only [trailingDoc, leadingDoc, prints_cat_nil, prints_nil_cat]
    · simp only [Bool.false_eq_true, if_false]
      apply like_lead hn.led.2.1
      rw [hn.led.1]
      split <;> rfl
  exact (sim_leading _ hq hd ht).1.like h1 ((Like.refl _).cat hl)

theorem Sim.free {e : Expr} (ha : e.ann = {}) (hs : SimL N (!e.ann.leading.isEmpty) q d (leadNotes N e.ann.leading ⊹ d0)) : Sim N q d d0 := by
  rw [ha] at hs
  exact hs.like (Like.refl _) like_nil.symm

/-! ## Statements -/

theorem voiced_length_pos (es : Exprs) : decide (0 < (es.voiced N).length) = decide (0 < es.length) := by
  cases es with
  | nil => rfl
  | cons e es =>
    rw [Exprs.voiced]
    have : 0 < (notes N (linesBefore e.tokens) e.ann.leading (fun n => .cons (e.voiced N (fresh n)) (es.voiced N))).length := by
      cases e.ann.leading <;> simp [notes, Exprs.length]
    simp [this, Exprs.length]

/-- Line breaks before what follows the comments. -/
def lastGap (n : Nat) : List Comment → Nat
  | [] => n
  | c :: cs => lastGap c.gap cs

theorem gap_sep (top : Bool) (c : Comment) : stmtSep top c.gap = .line (if c.after ≤ 1 then .hard else .empty) := by
  unfold Comment.gap
  by_cases hc : c.after ≤ 1 <;> cases top <;> simp [hc, stmtSep]

theorem like_notes (cx : Cx) (top : Bool) (e : Expr) (es1 : Exprs) : ∀ (cs : List Comment) (n : Nat) (first : Bool),
    Like (fmtExprs o cx top first (notes N n cs (fun n => .cons (e.voiced N (fresh n)) es1)))
      ((if first then .nil else stmtSep top n) ⊹ leadNotes N cs ⊹
        fmt o { dir := true, eq := true, inArg := cx.inArg, effect := top || 0 < es1.length }
          (e.voiced N (fresh (lastGap n cs))) ⊹ fmtExprs o cx top false es1)
  | [], n, first => by
    rw [notes, fmtExprs, voiced_fresh, leadNotes, lastGap]
    exact (Like.refl _).cat like_nil.symm
  | c :: cs, n, first => by
    rw [notes, fmtExprs, leadNotes, lastGap]
    have h1 : linesBefore (noteExpr N n c.text).tokens = n := fresh_lines n ⟨.ident, [], noteText N c.text, []⟩
    rw [h1]
    refine (Like.refl _).cat ?_
    have h2 := like_notes cx top e es1 cs c.gap false
    rw [if_neg (by decide), gap_sep] at h2
    refine Like.trans ?_ (like_assoc (a := .tok (noteTok N c.text)) ).symm
    refine Like.cat ?_ ?_
    · have hs : (noteExpr N n c.text).Simple o := ⟨rfl, ⟨nls_comment n, rfl⟩, by rintro ⟨⟩⟩
      exact (same_wrap hs _).like
    · exact h2.trans like_assoc.symm

/-! ## Curly curly -/

theorem voiced_nil {es : Exprs} (h : es.voiced N = .nil) : es = .nil := by
  cases es with
  | nil => rfl
  | cons e es =>
    rw [Exprs.voiced] at h
    cases hl : e.ann.leading <;> rw [hl] at h <;> cases h

theorem voiced_single {es : Exprs} {e1 : Expr} (h : es.voiced N = .cons e1 .nil) :
    ∃ e, es = .cons e .nil ∧ e1 = e.voiced N (fresh (linesBefore e.tokens)) := by
  cases es with
  | nil => cases h
  | cons e es =>
    rw [Exprs.voiced] at h
    cases hl : e.ann.leading with
    | nil =>
      rw [hl, notes] at h
      injection h with h1 h2
      have := voiced_nil h2
      subst this
      exact ⟨e, rfl, h1.symm⟩
    | cons c cs =>
      rw [hl, notes] at h
      injection h with h1 h2
      cases cs <;> cases h2

theorem voiced_atom {e : Expr} {a : Ann} {k : Kind} {t : Token} (h1 : e.voiced N h = .atom a k t) :
    ∃ a' t', e = .atom a' k t' := by
  cases e <;> simp only [Expr.voiced, Expr.atom.injEq, reduceCtorEq] at h1
  obtain ⟨-, rfl, -⟩ := h1
  exact ⟨_, _, rfl⟩

theorem voiced_braced {e : Expr} {a : Ann} {l r : Token} {es : Exprs} (h1 : e.voiced N h = .braced a l es r) :
    ∃ a' l' es' r', e = .braced a' l' es' r' ∧ es = es'.voiced N := by
  cases e <;> simp only [Expr.voiced, Expr.braced.injEq, reduceCtorEq] at h1
  exact ⟨_, _, _, _, rfl, h1.2.2.1.symm⟩

theorem curly_iff (b : Bool) (es : Exprs) : (curlyCurly b es).isSome = true ↔
    b = true ∧ ∃ ia il ea t ir, es = .cons (.braced ia il (.cons (.atom ea .rIdentifier t) .nil) ir) .nil := by
  constructor
  · intro h1
    unfold curlyCurly at h1
    split at h1
    · split at h1
      · exact ⟨by assumption, _, _, _, _, _, rfl⟩
      · cases h1
    · cases h1
  · rintro ⟨rfl, ia, il, ea, t, ir, rfl⟩
    rfl

theorem ann_of_free {a : Ann} {l : List Comment} (h1 : a.all ++ l = []) : a = {} ∧ l = [] :=
  ⟨Ann.eq_nil (List.append_eq_nil_iff.1 h1).1, (List.append_eq_nil_iff.1 h1).2⟩

/-- Braces around braces around a name. -/
theorem curly_voiced (b : Bool) {es : Exprs} (hc : (curlyCurly true es).isSome = true → es.comments = []) :
    (∃ il t ir, b = true ∧ es = .cons (.braced {} il (.cons (.atom {} .rIdentifier t) .nil) ir) .nil ∧
      es.voiced N = .cons (.braced {} (hush il) (.cons (.atom {} .rIdentifier (hush t)) .nil) (hush ir)) .nil) ∨
    (curlyCurly b es = none ∧ curlyCurly b (es.voiced N) = none) := by
  by_cases h1 : (curlyCurly b es).isSome = true
  · left
    obtain ⟨rfl, ia, il, ea, t, ir, rfl⟩ := (curly_iff _ _).1 h1
    have h2 := hc h1
    simp only [Exprs.comments, Expr.comments, List.append_nil] at h2
    obtain ⟨rfl, h3⟩ := ann_of_free h2
    have h4 := Ann.eq_nil h3
    subst h4
    exact ⟨il, t, ir, rfl, rfl, rfl⟩
  · right
    refine ⟨by simpa using h1, ?_⟩
    cases h3 : curlyCurly b (es.voiced N) with
    | none => rfl
    | some v =>
      have h4 : (curlyCurly b (es.voiced N)).isSome = true := by rw [h3]; rfl
      obtain ⟨rfl, ia, il, ea, t, ir, h5⟩ := (curly_iff _ _).1 h4
      obtain ⟨e, rfl, h6⟩ := voiced_single h5
      obtain ⟨a', l', es', r', rfl, h7⟩ := voiced_braced h6.symm
      obtain ⟨e', rfl, h8⟩ := voiced_single h7.symm
      obtain ⟨a2, t2, rfl⟩ := voiced_atom h8.symm
      exact absurd rfl h1

theorem groupable_voiced {a : Ann} {es : Exprs} (ha : a.dangling = [])
    (hc : (curlyCurly true es).isSome = true → es.comments = []) :
    groupableBraces {} true (es.voiced N) = groupableBraces a true es := by
  cases hes : es with
  | nil => simp [groupableBraces, Exprs.voiced, ha]
  | cons e es' =>
    rw [← hes]
    have h1 : groupableBraces a true es = (curlyCurly true es).isNone := by rw [hes]; rfl
    have h2 : groupableBraces {} true (es.voiced N) = (curlyCurly true (es.voiced N)).isNone := by
      cases hv : es.voiced N with
      | nil => rw [voiced_nil hv] at hes; cases hes
      | cons _ _ => rfl
    rw [h1, h2]
    rcases curly_voiced (N := N) true hc with ⟨il, t, ir, -, h3, h4⟩ | ⟨h3, h4⟩
    · rw [h3] at h4 ⊢
      rw [h4]
      rfl
    · rw [h3, h4]

theorem braced_none {a : Ann} {l r : Token} {es : Exprs} {list : Doc} (hn : es ≠ .nil)
    (hc : curlyCurly cx.inArg es = none) : bracedDoc cx a l es list r = tokDoc l ⊹ hardBlock list ⊹ tokDoc r := by
  cases es with
  | nil => exact absurd rfl hn
  | cons e es => simp only [bracedDoc, hc]

theorem sim_braced {a : Ann} {l r : Token} {es : Exprs} {list list0 : Doc} (hh : Mild h) (ha : a.Led o)
    (hl : Short N l) (hr : Short N r) (hn : es.Noted o N)
    (hc : (curlyCurly true es).isSome = true → es.comments = []) (hs : SimL N true q list list0) :
    Sim N q (bracedDoc cx a l es list r) (bracedDoc cx {} (h l) (es.voiced N) list0 (hush r)) ∧
    Starts (bracedDoc cx {} (h l) (es.voiced N) list0 (hush r)) := by
  cases hes : es with
  | nil =>
    have h1 : danglingHard a.dangling = .nil := by rw [ha.1]; rfl
    simp only [bracedDoc, Exprs.voiced, h1]
    exact ⟨(sim_mild hh hl).cat (sim_nil.cat (sim_hush hr)), starts_mild.cat⟩
  | cons e es' =>
    rw [← hes]
    have hne : es ≠ .nil := by rw [hes]; nofun
    have hne' : es.voiced N ≠ .nil := fun hv => hne (voiced_nil hv)
    rcases curly_voiced (N := N) cx.inArg hc with ⟨il, t, ir, hb, h3, h4⟩ | ⟨h3, h4⟩
    · rw [h4, h3]
      rw [h3] at hn
      obtain ⟨⟨-, n1, -, ⟨⟨-, n2, -⟩, -⟩, n3⟩, -⟩ := hn
      simp only [bracedDoc, curlyCurly, hb, if_true]
      refine ⟨Sim.group (Sim.cat sim_nil ((sim_mild hh hl).cat ((sim_hush n1).cat ((sim_spaceBlock ?_).cat
        ((sim_hush n3).cat ((sim_hush hr).cat sim_nil)))))), ?_⟩
      · exact sim_nodeNil (sim_hush n2)
      · exact (Starts.like starts_mild.cat like_nil).group
    · rw [braced_none hne h3, braced_none hne' h4]
      exact ⟨(sim_mild hh hl).cat ((sim_hard hs).cat (sim_hush hr)), starts_mild.cat⟩

end Verif.Format
