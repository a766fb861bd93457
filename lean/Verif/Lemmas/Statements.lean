import Verif.Spec.Statements
import Verif.Lemmas.PlacementSound
import Verif.Lemmas.PlacementRoot
import Verif.Lemmas.FormatSkip
import Verif.Lemmas.PlacementVerbs

/-!
# Comments stay with their statements
-/

namespace Verif.Format
open Verif.Syntax

/-! ## Comments on the same line and later ones -/

theorem scan_later (ps : List Piece) : ∀ m n, ∀ c ∈ scan m n true ps, c.own = true := by
  induction ps with
  | nil => intro m n c hc; cases hc
  | cons p ps ih =>
    intro m n c hc
    unfold scan at hc
    split at hc
    · exact ih _ _ c hc
    · exact ih _ _ c hc
    · simp only [List.mem_cons] at hc
      rcases hc with rfl | hc
      · rfl
      · exact ih _ _ c hc

theorem scan_lines (ps : List Piece) : ∀ m n, ∃ A B, scan m n false ps = A ++ B ∧
    (∀ c ∈ A, c.own = false) ∧ (∀ c ∈ B, c.own = true) ∧
    A.map Scanned.text = lineComments ps ∧ B.map Scanned.text = laterComments ps := by
  induction ps with
  | nil => intro m n; exact ⟨[], [], rfl, nofun, nofun, rfl, rfl⟩
  | cons p ps ih =>
    intro m n
    unfold scan lineComments laterComments
    split
    · rename_i hk
      refine ⟨[], _, rfl, nofun, scan_later ps _ _, ?_, ?_⟩
      · rw [List.takeWhile_cons_of_neg (by simp [hk])]; rfl
      · rw [List.dropWhile_cons_of_neg (by simp [hk]), scan_texts]
        simp [commentTexts, hk]
    · rename_i hk
      obtain ⟨A, B, h1, h2, h3, h4, h5⟩ := ih (m - 1) n
      refine ⟨A, B, h1, h2, h3, ?_, ?_⟩
      · rw [List.takeWhile_cons_of_pos (by simp [hk]), h4]
        simp [commentTexts, lineComments, hk]
      · rw [List.dropWhile_cons_of_pos (by simp [hk]), h5]; rfl
    · rename_i hk
      obtain ⟨A, B, h1, h2, h3, h4, h5⟩ := ih (m - 1) 0
      refine ⟨_ :: A, B, by rw [h1]; rfl, ?_, h3, ?_, ?_⟩
      · intro c hc
        simp only [List.mem_cons] at hc
        rcases hc with rfl | hc
        · rfl
        · exact h2 c hc
      · rw [List.takeWhile_cons_of_pos (by simp [hk]), List.map_cons, h4]
        simp [commentTexts, lineComments, hk]
      · rw [List.dropWhile_cons_of_pos (by simp [hk]), h5]; rfl

theorem gapDecos_lines (x : View) (r : Ref) (g : Nat) (p f : Option (Nat × View)) (prev : Option Token)
    (u : Token) : ∃ A B, gapDecos x r g p f prev u = A ++ B ∧
    (∀ d ∈ A, d.position ≠ .ownLine) ∧ (∀ d ∈ B, d.position = .ownLine) ∧
    A.map Deco.text = lineComments (trailingOf prev ++ u.leading) ∧
    B.map Deco.text = laterComments (trailingOf prev ++ u.leading) := by
  obtain ⟨A, B, h1, h2, h3, h4, h5⟩ := scan_lines (trailingOf prev ++ u.leading) (trailingOf prev).length 0
  unfold gapDecos
  simp only [h1, List.map_append]
  refine ⟨_, _, rfl, ?_, ?_, by rw [List.map_map]; exact h4, by rw [List.map_map]; exact h5⟩
  · intro d hd
    obtain ⟨c, hc, rfl⟩ := List.mem_map.1 hd
    simp only [h2 c hc, Bool.false_eq_true, if_false]
    split <;> simp
  · intro d hd
    obtain ⟨c, hc, rfl⟩ := List.mem_map.1 hd
    simp only [h3 c hc, if_true]

/-! ## Lists of statements -/

/-- Nodes with statements. -/
def stmtsKind (k : Kind) : Prop := k = .rRoot ∨ k = .rBracedExpressions

theorem view_not_hole (e : Expr) : e.view.isHole = false := by
  cases e <;> simp [View.isHole, Expr.view, View.parts, Parts.one, View.kind]

/-- Between statements the comments go where they go by default. -/
theorem placeComment_stmts {c : Deco} (hk : stmtsKind c.enclosing.kind)
    (hp : ∀ i y, c.preceding = some (i, y) → y.isHole = false) : placeComment c = placeDefault c := by
  have hn : ∀ k, k ≠ .rRoot → k ≠ .rBracedExpressions → c.enclosing.kind ≠ k := by
    intro k h1 h2 h
    rcases hk with hk | hk
    · exact h1 (h.symm.trans hk)
    · exact h2 (h.symm.trans hk)
  have hl : ∀ k n, k ≠ .rRoot → k ≠ .rBracedExpressions → handleLoop k n c = none := by
    intro k n h1 h2
    unfold handleLoop
    rw [if_neg (hn k h1 h2)]
  have e1 : handleHole c = none := by
    unfold handleHole
    split
    · rename_i i y hy
      rw [hp i y hy]; rfl
    · rfl
  have e2 : handleArgument c = none := by
    unfold handleArgument; rw [if_neg (fun h => hn _ (by decide) (by decide) h.1)]
  have e3 : handleNameClause c = none := by
    unfold handleNameClause; rw [if_neg (fun h => hn _ (by decide) (by decide) h.1)]
  have e4 : handleParen c = none := by unfold handleParen; rw [if_neg (hn _ (by decide) (by decide))]
  have e5 : handleElse c = none := by unfold handleElse; rw [if_neg (hn _ (by decide) (by decide))]
  have e6 : handleIf c = none := by unfold handleIf; rw [if_neg (hn _ (by decide) (by decide))]
  have e7 : handleRepeat c = none := by unfold handleRepeat; rw [if_neg (hn _ (by decide) (by decide))]
  have e8 : handleFunction c = none := by unfold handleFunction; rw [if_neg (hn _ (by decide) (by decide))]
  unfold placeComment
  split
  · rfl
  · simp only [orElse, e1, e2, e3, e4, e5, e6, e7, e8,
      hl _ _ (show Kind.rWhileStatement ≠ .rRoot by decide) (by decide),
      hl _ _ (show Kind.rForStatement ≠ .rRoot by decide) (by decide), Option.getD]

/-- Comments placed before (`.leading`) or after (`.trailing`) the child `i` of the node `r`, from the gap `g`. -/
def Gathered (w : Where) (r : Ref) (i : Nat) (D : List Deco) : Prop :=
  ∀ d ∈ D, placeComment d = ⟨w, r ++ [i]⟩ ∧ d.ref = r ∧ d.gap = (if w = .leading then i else i + 1)

/-- The comments of statements from position `i` on: for each statement those before it, those in it and those behind
it. -/
def Blocks (r : Ref) : Nat → List Station → List (List Deco) → Prop
  | _, [], [] => True
  | i, s :: ss, D :: Ds => (∃ G H, D = G ++ s.expr.view.decos (r ++ [i]) false ++ H ∧
      G.map Deco.text = s.ahead ∧ Gathered .leading r i G ∧
      H.map Deco.text = s.behind ∧ Gathered .trailing r i H) ∧ Blocks r (i + 1) ss Ds
  | _, _, _ => False

theorem commentTexts_lines (ps : List Piece) : lineComments ps ++ laterComments ps = commentTexts ps := by
  unfold lineComments laterComments
  rw [← commentTexts_append, List.takeWhile_append_dropWhile]

/-- The comments among statements, in blocks; those at the end of the line of what comes before are not among them. -/
theorem stations_decos (x : View) (r : Ref) (hx : stmtsKind x.kind) (next : Token) : ∀ (es : Exprs) (i : Nat)
    (prec : Option (Nat × View)) (prev : Option Token),
    (∀ j y, prec = some (j, y) → i = j + 1 ∧ y.isHole = false) → (es = .nil → prec.isSome = true) →
    ∃ E Ds, (es.view next).decos x r i prec true prev = E ++ Ds.flatten ∧
      (prec = none → E = []) ∧ (∀ j y, prec = some (j, y) → Gathered .trailing r j E) ∧
      (prec.isSome = true → E.map Deco.text =
        if es.noMore then commentTexts (trailingOf prev ++ es.triviaUpTo next)
        else lineComments (trailingOf prev ++ es.triviaUpTo next)) ∧
      Blocks r i (stations prec.isNone (trailingOf prev) next es) Ds
  | .nil, i, prec, prev, hp, hn => by
    obtain ⟨⟨j, y⟩, rfl⟩ := Option.isSome_iff_exists.1 (hn rfl)
    obtain ⟨rfl, hy⟩ := hp j y rfl
    refine ⟨(Exprs.nil.view next).decos x r (j + 1) (some (j, y)) true prev, [], by simp, nofun, ?_, ?_, trivial⟩
    · intro j' y' he d hd
      cases he
      rw [Exprs.view, Parts.one, Parts.decos, Parts.decos, List.append_nil, if_pos rfl] at hd
      obtain ⟨h1, h2, h3, h4, h5⟩ := gapDecos_mem hd
      rw [placeComment_stmts (by rw [h2]; exact hx) (by
        intro i' y' h; rw [h4] at h; cases h; exact hy)]
      refine ⟨?_, h1, h3⟩
      have h5 : d.following = none := h5
      unfold placeDefault
      rw [h4, h5, h1]
      cases d.position <;> rfl
    · intro _
      rw [Exprs.view, Parts.one, Parts.decos, Parts.decos, List.append_nil, if_pos rfl, gapDecos_texts]
      rfl
  | .cons e es, i, prec, prev, hp, _ => by
    obtain ⟨E', Ds, h1, -, h3, h4, h5⟩ := stations_decos x r hx next es (i + 1) (some (i, e.view))
      (e.view.lastOr prev) (by intro j y h; cases h; exact ⟨rfl, view_not_hole e⟩) (fun _ => rfl)
    obtain ⟨t, ts, ht⟩ := List.exists_cons_of_ne_nil (tokens_ne_nil e)
    have hfirst : e.view.first = some t := by rw [view_first, view_tokens, ht]; rfl
    have hlast : trailingOf (e.view.lastOr prev) = triviaAfter e.tokens := by
      unfold View.lastOr triviaAfter
      rw [view_last, view_tokens]
      cases hl : e.tokens.getLast? with
      | none => rw [List.getLast?_eq_none_iff] at hl; exact absurd hl (tokens_ne_nil e)
      | some u => rfl
    have hbefore : triviaBefore e.tokens = t.leading := by rw [ht]; rfl
    have hdecos : ((Exprs.cons e es).view next).decos x r i prec true prev =
        gapDecos x r i prec (some (i, e.view)) prev t ++ e.view.decos (r ++ [i]) false ++ (E' ++ Ds.flatten) := by
      rw [Exprs.view, Parts.decos, subDecos, hfirst]
      simp only [if_true, Option.isSome_some, Bool.or_true, h1]
    rw [hlast] at h4
    have hE := h4 rfl
    clear h4
    rw [hlast] at h5
    have hH := h3 i e.view rfl
    obtain ⟨A, B, g1, g2, g3, g4, g5⟩ := gapDecos_lines x r i prec (some (i, e.view)) prev t
    have hm : ∀ d ∈ gapDecos x r i prec (some (i, e.view)) prev t, placeComment d = placeDefault d := by
      intro d hd
      obtain ⟨k1, k2, k3, k4, k5⟩ := gapDecos_mem hd
      exact placeComment_stmts (by rw [k2]; exact hx) (by
        intro i' y' h; rw [k4] at h; exact (hp i' y' h).2)
    cases hprec : prec with
    | none =>
      refine ⟨[], (gapDecos x r i prec (some (i, e.view)) prev t ++ e.view.decos (r ++ [i]) false ++ E') :: Ds,
        ?_, fun _ => rfl, nofun, nofun, ?_⟩
      · rw [← hprec, hdecos]; simp
      · refine ⟨⟨_, E', rfl, ?_, ?_, ?_, hH⟩, h5⟩
        · rw [gapDecos_texts, ← hbefore]; rfl
        · intro d hd
          obtain ⟨k1, k2, k3, k4, k5⟩ := gapDecos_mem hd
          rw [hm d hd]
          refine ⟨?_, k1, k3⟩
          unfold placeDefault
          rw [k4, k5, k1, hprec]
          cases d.position <;> rfl
        · rw [hE]; cases es <;> rfl
    | some jy =>
      obtain ⟨j, y⟩ := jy
      obtain ⟨rfl, hy⟩ := hp j y hprec
      refine ⟨A, (B ++ e.view.decos (r ++ [j + 1]) false ++ E') :: Ds, ?_, nofun, ?_, ?_, ?_⟩
      · rw [← hprec, hdecos, g1]; simp
      · intro j' y' he d hd
        cases he
        have hd' : d ∈ gapDecos x r (j + 1) prec (some (j + 1, e.view)) prev t := by
          rw [g1]; exact List.mem_append_left _ hd
        obtain ⟨k1, k2, k3, k4, k5⟩ := gapDecos_mem hd'
        rw [hm d hd']
        refine ⟨?_, k1, k3⟩
        have := g2 d hd
        unfold placeDefault
        rw [k4, k5, k1, hprec]
        cases hpos : d.position <;> first | rfl | exact absurd hpos this
      · intro _
        rw [g4]
        show _ = lineComments (trailingOf prev ++ triviaBefore e.tokens)
        rw [hbefore]
      · refine ⟨⟨B, E', rfl, ?_, ?_, ?_, hH⟩, h5⟩
        · rw [g5, ← hbefore]; rfl
        · intro d hd
          have hd' : d ∈ gapDecos x r (j + 1) prec (some (j + 1, e.view)) prev t := by
            rw [g1]; exact List.mem_append_right _ hd
          obtain ⟨k1, k2, k3, k4, k5⟩ := gapDecos_mem hd'
          rw [hm d hd']
          refine ⟨?_, k1, k3⟩
          unfold placeDefault
          rw [k4, k5, k1, g3 d hd]
        · rw [hE]; cases es <;> rfl

/-! ## Comments of the statements -/

/-- Comments inside a node are attached to the node or to parts of it, and not after it. -/
theorem inside_target (e : Expr) (q : Ref) : ∀ d ∈ e.view.decos q false,
    q <+: (placeComment d).target ∧ placeComment d ≠ ⟨.trailing, q⟩ := by
  intro d hd
  obtain ⟨q', h1, h2, h3⟩ := view_ok e.view q false nofun d hd
  obtain ⟨s, hs⟩ := fate h3
  rw [hs.target, h1]
  refine ⟨⟨q' ++ s, by simp⟩, ?_⟩
  intro he
  obtain ⟨i, hi, -⟩ := hs.trailing (by rw [he])
  have := hs.target
  rw [he, h1, hi] at this
  have := congrArg List.length this
  simp at this

theorem prefix_child {r t : Ref} {i j : Nat} (h1 : (r ++ [i]) <+: t) (h2 : (r ++ [j]) <+: t) : i = j := by
  obtain ⟨a, rfl⟩ := h1
  obtain ⟨b, h⟩ := h2
  simp only [List.append_assoc, List.cons_append, List.nil_append] at h
  have := List.append_cancel_left h
  simp at this
  exact this.1.symm

theorem block_targets {r : Ref} {i : Nat} {s : Station} {G H : List Deco} (hG : Gathered .leading r i G)
    (hH : Gathered .trailing r i H) : ∀ d ∈ G ++ s.expr.view.decos (r ++ [i]) false ++ H,
    (r ++ [i]) <+: (placeComment d).target := by
  intro d hd
  simp only [List.mem_append] at hd
  rcases hd with (hd | hd) | hd
  · rw [(hG d hd).1]; exact List.prefix_refl _
  · exact (inside_target _ _ d hd).1
  · rw [(hH d hd).1]; exact List.prefix_refl _

theorem blocks_targets {r : Ref} : ∀ {i : Nat} {ss : List Station} {Ds : List (List Deco)}, Blocks r i ss Ds →
    ∀ d ∈ Ds.flatten, ∃ j, i ≤ j ∧ (r ++ [j]) <+: (placeComment d).target
  | _, [], [], _, d, hd => by cases hd
  | i, s :: ss, D :: Ds, ⟨⟨G, H, h1, h2, h3, h4, h5⟩, hB⟩, d, hd => by
    rw [List.flatten_cons, List.mem_append] at hd
    rcases hd with hd | hd
    · rw [h1] at hd
      exact ⟨i, Nat.le_refl _, block_targets h3 h5 d hd⟩
    · obtain ⟨j, hj, h⟩ := blocks_targets hB d hd
      exact ⟨j, by omega, h⟩

/-- The comments that are attached to a statement, among them `X` before it and `Y`. -/
structure Station.Cares (X Y : List (List Byte)) (s : Station) (e : Expr) : Prop where
  tokens : e.tokens = s.expr.tokens
  leading : ∃ A L, e.ann.leading = A ++ L ∧ texts A = X ++ s.ahead ∧ ∀ c ∈ A, c.within = false
  trailing : texts e.ann.trailing = s.behind ∧ ∀ c ∈ e.ann.trailing, c.within = false
  all : (texts e.comments).Perm (X ++ s.ahead ++ (s.inside ++ Y) ++ s.behind)

theorem Ref.le_refl (r : Ref) : Ref.le r r = true := by
  induction r with
  | nil => rfl
  | cons a r ih => simp [Ref.le, ih]

/-- The texts of comments that lead the node `q`. -/
def ledTexts (q : Ref) (D : List Deco) : List (List Byte) :=
  (D.filter fun d => placeComment d == ⟨.leading, q⟩).map Deco.text

theorem ledTexts_nil {q : Ref} {D : List Deco} (h : ∀ d ∈ D, ¬ q <+: (placeComment d).target) : ledTexts q D = [] := by
  rw [ledTexts, List.filter_eq_nil_iff.2]
  · rfl
  · intro d hd he
    refine h d hd ?_
    rw [eq_of_beq he]
    exact List.prefix_refl _

theorem station_cares {D X Y G H : List Deco} {r : Ref} {i : Nat} {s : Station}
    (hD : D = X ++ (G ++ s.expr.view.decos (r ++ [i]) false ++ H) ++ Y)
    (hX : ∀ d ∈ X, (r ++ [i]) <+: (placeComment d).target →
      placeComment d = ⟨.leading, r ++ [i]⟩ ∧ d.precedes (r ++ [i]) = true)
    (hY : ∀ d ∈ Y, (r ++ [i]) <+: (placeComment d).target → placeComment d = ⟨.leading, r ++ [i]⟩)
    (hg : G.map Deco.text = s.ahead) (hG : Gathered .leading r i G)
    (hh : H.map Deco.text = s.behind) (hH : Gathered .trailing r i H) :
    s.Cares (ledTexts (r ++ [i]) X) (ledTexts (r ++ [i]) Y) (s.expr.annotate (D.map Deco.placed) (r ++ [i])) := by
  have hann : (s.expr.annotate (D.map Deco.placed) (r ++ [i])).ann = annAt (D.map Deco.placed) (r ++ [i]) :=
    annotate_ann _ _ _
  have hout : ∀ (Z : List Deco), (∀ d ∈ Z, (r ++ [i]) <+: (placeComment d).target →
      placeComment d = ⟨.leading, r ++ [i]⟩) →
      (Z.map Deco.placed).filter (fun p => p.to == ⟨.trailing, r ++ [i]⟩) = [] := by
    intro Z hZ
    rw [List.filter_eq_nil_iff]
    intro p hp he
    obtain ⟨d, hd, rfl⟩ := List.mem_map.1 hp
    have : placeComment d = ⟨.trailing, r ++ [i]⟩ := eq_of_beq he
    have h2 := hZ d hd (by rw [this]; exact List.prefix_refl _)
    rw [this] at h2
    cases h2
  have hlead : ∀ (Z : List Deco), (Z.map Deco.placed).filter (fun p => p.to == ⟨.leading, r ++ [i]⟩) =
      (Z.filter fun d => placeComment d == ⟨.leading, r ++ [i]⟩).map Deco.placed := by
    intro Z
    rw [List.filter_map]
    rfl
  have hin : ∀ (w : Where) (Z : List Deco), Gathered w r i Z →
      (Z.map Deco.placed).filter (fun p => p.to == ⟨w, r ++ [i]⟩) = Z.map Deco.placed := by
    intro w Z hZ
    rw [List.filter_eq_self]
    intro p hp
    obtain ⟨d, hd, rfl⟩ := List.mem_map.1 hp
    show (placeComment d == _) = true
    rw [(hZ d hd).1]
    exact beq_self_eq_true _
  have hother : ∀ (w v : Where) (Z : List Deco), w ≠ v → Gathered w r i Z →
      (Z.map Deco.placed).filter (fun p => p.to == ⟨v, r ++ [i]⟩) = [] := by
    intro w v Z hwv hZ
    rw [List.filter_eq_nil_iff]
    intro p hp he
    obtain ⟨d, hd, rfl⟩ := List.mem_map.1 hp
    have : placeComment d = ⟨v, r ++ [i]⟩ := eq_of_beq he
    rw [(hZ d hd).1] at this
    cases this
    exact hwv rfl
  have htexts : ∀ Z : List Deco, texts ((Z.map Deco.placed).map Placed.comment) = Z.map Deco.text := by
    intro Z
    simp only [texts, List.map_map]
    rfl
  refine ⟨annotate_tokens _ _ _, ?_, ?_, ?_⟩
  · rw [hann]
    refine ⟨(((X.filter fun d => placeComment d == ⟨.leading, r ++ [i]⟩) ++ G).map Deco.placed).map Placed.comment,
      ((((s.expr.view.decos (r ++ [i]) false).map Deco.placed).filter
        (fun p => p.to == ⟨.leading, r ++ [i]⟩)) ++
        (Y.filter fun d => placeComment d == ⟨.leading, r ++ [i]⟩).map Deco.placed).map Placed.comment, ?_, ?_, ?_⟩
    · simp only [annAt, hD, List.map_append, List.filter_append, hlead X, hlead Y, hin _ _ hG,
        hother _ .leading _ (by decide) hH]
      simp
    · rw [htexts, List.map_append, hg]; rfl
    · intro c hc
      simp only [List.mem_map] at hc
      obtain ⟨p, ⟨d, hd, rfl⟩, rfl⟩ := hc
      rw [List.mem_append] at hd
      rcases hd with hd | hd
      · rw [List.mem_filter] at hd
        have he : placeComment d = ⟨.leading, r ++ [i]⟩ := eq_of_beq hd.2
        have := (hX d hd.1 (by rw [he]; exact List.prefix_refl _)).2
        simp only [Deco.placed, he, this, Bool.not_true]
      · obtain ⟨h1, h2, h3⟩ := hG d hd
        simp only [if_true] at h3
        simp only [Deco.placed, h1, Deco.precedes, h2, h3, Ref.le_refl, Bool.true_or, Bool.not_true]
  · have ht : (annAt (D.map Deco.placed) (r ++ [i])).trailing = (H.map Deco.placed).map Placed.comment := by
      have hI : ((s.expr.view.decos (r ++ [i]) false).map Deco.placed).filter
          (fun p => p.to == ⟨.trailing, r ++ [i]⟩) = [] := by
        rw [List.filter_eq_nil_iff]
        intro p hp he
        obtain ⟨d, hd, rfl⟩ := List.mem_map.1 hp
        exact (inside_target _ _ d hd).2 (eq_of_beq he)
      simp only [annAt, hD, List.map_append, List.filter_append, hout _ (fun d hd h => (hX d hd h).1), hout _ hY,
        hin _ _ hH, hother _ .trailing _ (by decide) hG, hI]
      simp
    rw [hann, ht]
    refine ⟨by rw [htexts, hh], ?_⟩
    intro c hc
    simp only [List.mem_map] at hc
    obtain ⟨p, ⟨d, hd, rfl⟩, rfl⟩ := hc
    obtain ⟨h1, h2, h3⟩ := hH d hd
    simp only [Deco.placed, h1, h2]
    rw [← Bool.not_eq_true, List.isPrefixOf_iff_prefix]
    intro hp
    have := hp.length_le
    rw [List.length_append] at this
    exact absurd this (by simp)
  · rw [annotate_comments]
    refine (texts_commentsAt D _ (nodup_refs _ _)).trans ?_
    have hsel : D.filter (fun d => decide ((placeComment d).target ∈ s.expr.view.refs (r ++ [i]))) =
        (X.filter fun d => placeComment d == ⟨.leading, r ++ [i]⟩) ++
        (G ++ s.expr.view.decos (r ++ [i]) false ++ H) ++
        (Y.filter fun d => placeComment d == ⟨.leading, r ++ [i]⟩) := by
      have no : ∀ Z : List Deco, (∀ d ∈ Z, (r ++ [i]) <+: (placeComment d).target →
          placeComment d = ⟨.leading, r ++ [i]⟩) →
          Z.filter (fun d => decide ((placeComment d).target ∈ s.expr.view.refs (r ++ [i]))) =
          Z.filter fun d => placeComment d == ⟨.leading, r ++ [i]⟩ := by
        intro Z hZ
        refine List.filter_congr fun d hd => ?_
        rw [Bool.eq_iff_iff, decide_eq_true_eq, mem_refs, beq_iff_eq]
        constructor
        · rintro ⟨q', h, -⟩
          exact hZ d hd ⟨q', h.symm⟩
        · intro h
          rw [h]
          exact ⟨[], by simp, rfl⟩
      rw [hD, List.filter_append, List.filter_append, no X (fun d hd h => (hX d hd h).1), no Y hY]
      congr 2
      rw [List.filter_eq_self]
      intro d hd
      rw [decide_eq_true_eq, mem_refs]
      simp only [List.mem_append] at hd
      rcases hd with (hd | hd) | hd
      · rw [(hG d hd).1]; exact ⟨[], by simp, rfl⟩
      · obtain ⟨q', h1, h2, h3⟩ := view_ok s.expr.view (r ++ [i]) false nofun d hd
        obtain ⟨t, ht⟩ := fate h3
        obtain ⟨y, hy⟩ := ht.node
        refine ⟨q' ++ t, by rw [ht.target, h1]; simp, ?_⟩
        rw [nodeAt_append, h2]
        simp only [hy, Option.isSome_some]
      · rw [(hH d hd).1]; exact ⟨[], by simp, rfl⟩
    rw [hsel]
    simp only [List.map_append, hg, hh, view_decos, view_tokens, gapsOf_inner]
    show (ledTexts _ X ++ _ ++ ledTexts _ Y).Perm _
    simp only [List.append_assoc]
    refine List.Perm.append_left _ (List.Perm.append_left _ (List.Perm.append_left _ ?_))
    exact List.perm_append_comm

/-- The statements with their comments. -/
def Cared (X Y : List (List Byte)) : List Station → Exprs → Prop
  | [], .nil => True
  | s :: ss, .cons e es => s.Cares X Y e ∧ Cared [] [] ss es
  | _, _ => False

theorem stations_cared {D D1 : List Deco} {r : Ref} {next : Token} : ∀ (es : Exprs) (i : Nat) (first : Bool)
    (prev : List Piece) (Ds : List (List Deco)) (D0 : List Deco), D = D0 ++ Ds.flatten ++ D1 →
    (∀ d ∈ D0, (r ++ [i]) <+: (placeComment d).target →
      placeComment d = ⟨.leading, r ++ [i]⟩ ∧ d.precedes (r ++ [i]) = true) →
    (∀ d ∈ D1, (r ++ [i]) <+: (placeComment d).target → placeComment d = ⟨.leading, r ++ [i]⟩) →
    (∀ d ∈ D0 ++ D1, ∀ j, i < j → ¬ (r ++ [j]) <+: (placeComment d).target) →
    Blocks r i (stations first prev next es) Ds →
    Cared (ledTexts (r ++ [i]) D0) (ledTexts (r ++ [i]) D1) (stations first prev next es)
      (es.annotate (D.map Deco.placed) r i)
  | .nil, _, _, _, _, _, _, _, _, _, _ => trivial
  | .cons e es, i, first, prev, [], D0, _, _, _, _, hB => by cases hB
  | .cons e es, i, first, prev, B :: Ds, D0, hD, h0, h1', hout, hB => by
    obtain ⟨⟨G, H, h1, h2, h3, h4, h5⟩, hB⟩ := hB
    have hrest : ∀ d ∈ Ds.flatten, ¬ (r ++ [i]) <+: (placeComment d).target := by
      intro d hd hp
      obtain ⟨j, hj, h⟩ := blocks_targets hB d hd
      have := prefix_child hp h
      omega
    refine ⟨?_, ?_⟩
    · have := station_cares (D := D) (s := ⟨e, prev ++ triviaBefore e.tokens, triviaAfter e.tokens ++ es.triviaUpTo next,
        first, es.noMore⟩) (X := D0) (Y := Ds.flatten ++ D1) (by rw [hD, h1]; simp) h0 (by
        intro d hd hp
        rw [List.mem_append] at hd
        rcases hd with hd | hd
        · exact absurd hp (hrest d hd)
        · exact h1' d hd hp) h2 h3 h4 h5
      have he : ledTexts (r ++ [i]) (Ds.flatten ++ D1) = ledTexts (r ++ [i]) D1 := by
        have := ledTexts_nil hrest
        unfold ledTexts at this ⊢
        rw [List.filter_append, List.map_append, this, List.nil_append]
      rw [he] at this
      exact this
    · have hn : ∀ d ∈ D0 ++ B ++ D1, ∀ j, i < j → ¬ (r ++ [j]) <+: (placeComment d).target := by
        intro d hd j hj hp
        simp only [List.mem_append] at hd
        rcases hd with (hd | hd) | hd
        · exact hout d (List.mem_append_left _ hd) j hj hp
        · rw [h1] at hd
          have := prefix_child (block_targets h3 h5 d hd) hp
          omega
        · exact hout d (List.mem_append_right _ hd) j hj hp
      have := stations_cared (D := D) (D1 := D1) (r := r) (next := next) es (i + 1) false (triviaAfter e.tokens) Ds
        (D0 ++ B) (by rw [hD]; simp)
        (fun d hd h => absurd h (hn d (List.mem_append_left _ hd) _ (Nat.lt_succ_self _)))
        (fun d hd h => absurd h (hn d (List.mem_append_right _ hd) _ (Nat.lt_succ_self _)))
        (fun d hd j hj => hn d hd j (by omega)) hB
      rw [ledTexts_nil (fun d hd => hn d (List.mem_append_left _ hd) _ (Nat.lt_succ_self _)),
        ledTexts_nil (fun d hd => hn d (List.mem_append_right _ hd) _ (Nat.lt_succ_self _))] at this
      exact this

/-- All comments of a file are attached to the statements they belong to. -/
theorem root_cared (x : Root) (hne : x.es ≠ .nil) : Cared [] [] (stations true [] x.eof x.es) x.attach.es := by
  obtain ⟨E, Ds, h1, h2, -, -, h5⟩ := stations_decos x.view [] (.inl rfl) x.eof x.es 0 none none nofun
    (fun h => absurd h hne)
  rw [h2 rfl, List.nil_append] at h1
  refine stations_cared (D := x.view.decos [] true) (D1 := []) x.es 0 true [] Ds [] ?_ nofun nofun (by simp) h5
  rw [List.append_nil, List.nil_append, ← h1]
  rfl

end Verif.Format
