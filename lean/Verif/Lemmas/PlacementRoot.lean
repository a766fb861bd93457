import Verif.Lemmas.Placement

/-!
# No comments are attached to the file itself

unless it has no statements.
-/

namespace Verif.Format
open Verif.Syntax

/-- The comment is between two parts of the file of which at least one is a statement, or further down
in the tree. -/
def Deco.below (c : Deco) : Prop :=
  c.ref ≠ [] ∨ (c.enclosing.kind = .rRoot ∧ (c.preceding.isSome ∨ c.following.isSome))

theorem placeBody_inside (r : Ref) (v : View) (h : r ≠ []) : (placeBody r v).target ≠ [] := by
  unfold placeBody
  split
  · split <;> simp [h]
  · exact h

theorem placeAlternative_inside (r : Ref) (v : View) (h : r ≠ []) {p : Placement}
    (hp : placeAlternative r v = some p) : p.target ≠ [] := by
  unfold placeAlternative at hp
  split at hp
  · split at hp
    · cases hp; exact placeBody_inside _ _ (by simp)
    · cases hp
  · cases hp; exact placeBody_inside _ _ h

theorem placeDefault_target {c : Deco} (h : c.below) : (placeDefault c).target ≠ [] := by
  unfold placeDefault
  split <;> try (simp)
  next h1 h2 =>
  rcases h with h | ⟨-, h⟩
  · exact h
  · simp_all

theorem handleLoop_target {k : Kind} {n : Nat} {c : Deco} (h : c.below) (hk : k ≠ .rRoot) {p : Placement}
    (hp : handleLoop k n c = some p) : p.target ≠ [] := by
  unfold handleLoop at hp
  split at hp
  · next hc =>
    have hr : c.ref ≠ [] := by
      rcases h with h | h
      · exact h
      · exact absurd (hc.symm.trans h.1) hk
    split at hp
    · split at hp
      · cases hp; exact placeBody_inside _ _ (by simp)
      · cases hp; exact hr
    · cases hp; exact hr
  · cases hp

theorem handleFunction_target {c : Deco} (h : c.below) {p : Placement}
    (hp : handleFunction c = some p) : p.target ≠ [] := by
  unfold handleFunction at hp
  split at hp
  · next hc =>
    have hr : c.ref ≠ [] := by
      rcases h with h | h
      · exact h
      · exact absurd (hc.symm.trans h.1) (by decide)
    split at hp
    · cases hp; exact hr
    · split at hp
      · split at hp
        · cases hp; exact placeBody_inside _ _ (by simp)
        · cases hp
      · cases hp
  · cases hp

theorem handleRepeat_target {c : Deco} (h : c.below) {p : Placement}
    (hp : handleRepeat c = some p) : p.target ≠ [] := by
  unfold handleRepeat at hp
  split at hp
  · next hc =>
    have hr : c.ref ≠ [] := by
      rcases h with h | h
      · exact h
      · exact absurd (hc.symm.trans h.1) (by decide)
    split at hp
    · cases hp; exact placeBody_inside _ _ (by simp)
    · cases hp; exact hr
  · cases hp

theorem handleIf_target {c : Deco} {p : Placement} (hp : handleIf c = some p) : p.target ≠ [] := by
  unfold handleIf at hp
  split at hp
  · split at hp
    · split at hp
      · cases hp; simp
      · split at hp
        · cases hp; exact placeBody_inside _ _ (by simp)
        · split at hp
          · split at hp
            · split at hp
              · split at hp
                · cases hp; exact placeBody_inside _ _ (by simp)
                · exact placeAlternative_inside _ _ (by simp) hp
              · cases hp
            · cases hp
          · cases hp
    · cases hp
  · cases hp

theorem handleElse_target {c : Deco} {p : Placement} (hp : handleElse c = some p) : p.target ≠ [] := by
  unfold handleElse at hp
  split at hp
  · split at hp
    · split at hp
      · exact placeAlternative_inside _ _ (by simp) hp
      · cases hp
    · cases hp
  · cases hp

theorem handleParen_target {c : Deco} {p : Placement} (hp : handleParen c = some p) :
    p.target ≠ [] := by
  unfold handleParen at hp
  split at hp
  · split at hp
    · cases hp; simp
    · split at hp
      · cases hp; simp
      · cases hp
  · cases hp

theorem handleNameClause_target {c : Deco} {p : Placement} (hp : handleNameClause c = some p) :
    p.target ≠ [] := by
  unfold handleNameClause at hp
  split at hp
  · cases hp; simp
  · cases hp

theorem handleArgument_target {c : Deco} {p : Placement} (hp : handleArgument c = some p) :
    p.target ≠ [] := by
  unfold handleArgument at hp
  split at hp
  · cases hp; simp
  · cases hp

theorem handleHole_target {c : Deco} {p : Placement} (hp : handleHole c = some p) :
    p.target ≠ [] := by
  unfold handleHole at hp
  repeat' split at hp
  all_goals first | (cases hp; simp) | cases hp

theorem orElse_target {c : Deco} {f : Deco → Option Placement} {x : Option Placement}
    (hf : ∀ p, f c = some p → p.target ≠ []) (hx : ∀ p, x = some p → p.target ≠ []) :
    ∀ p, orElse c f x = some p → p.target ≠ [] := by
  intro p hp
  cases x with
  | some q => exact hx p hp
  | none => exact hf p hp

theorem placeComment_target {c : Deco} (h : c.below) : (placeComment c).target ≠ [] := by
  have key : ∀ x : Option Placement, (∀ p, x = some p → p.target ≠ []) →
      (x.getD (placeDefault c)).target ≠ [] := by
    intro x hx
    cases x with
    | some p => exact hx p rfl
    | none => exact placeDefault_target h
  unfold placeComment
  split
  · exact placeDefault_target h
  · refine key _ ?_
    refine orElse_target (fun p => handleHole_target) ?_
    refine orElse_target (fun p => handleArgument_target) ?_
    refine orElse_target (fun p => handleNameClause_target) ?_
    refine orElse_target (fun p => handleParen_target) ?_
    refine orElse_target (fun p => handleElse_target) ?_
    refine orElse_target (fun p => handleIf_target) ?_
    refine orElse_target (fun p => handleRepeat_target h) ?_
    refine orElse_target (fun p => handleLoop_target h (by decide)) ?_
    refine orElse_target (fun p => handleFunction_target h) ?_
    exact fun p => handleLoop_target h (by decide)

/-! ## Comments of a file -/

theorem gapDecos_around {x : View} {r : Ref} {g : Nat} {prec foll : Option (Nat × View)}
    {prev : Option Token} {u : Token} {c : Deco} (h : c ∈ gapDecos x r g prec foll prev u) :
    c.enclosing = x ∧ c.ref = r ∧ c.preceding = prec ∧ c.following = foll := by
  unfold gapDecos at h
  obtain ⟨d, -, rfl⟩ := List.mem_map.1 h
  exact ⟨rfl, rfl, rfl, rfl⟩

theorem subDecos_around {x : View} {r : Ref} {i : Nat} {prec : Option (Nat × View)} {inside : Bool}
    {prev : Option Token} {y : View} {c : Deco} (h : c ∈ subDecos x r i prec inside prev y) :
    c.enclosing = x ∧ c.ref = r ∧ c.preceding = prec ∧ c.following = some (i, y) := by
  unfold subDecos at h
  split at h
  · split at h
    · exact gapDecos_around h
    · cases h
  · cases h

mutual
theorem View.decos_ref : ∀ (v : View) (r : Ref) (start : Bool), r ≠ [] → ∀ c ∈ v.decos r start, c.ref ≠ []
  | .node k ps, r, start, hr, c, hc => Parts.decos_ref ps _ r _ _ _ _ hr c hc
theorem Parts.decos_ref : ∀ (ps : Parts) (x : View) (r : Ref) (i : Nat) (prec : Option (Nat × View))
    (inside : Bool) (prev : Option Token), r ≠ [] → ∀ c ∈ ps.decos x r i prec inside prev, c.ref ≠ []
  | .nil, _, _, _, _, _, _, _, c, hc => by cases hc
  | .tok t ps, x, r, i, prec, inside, prev, hr, c, hc => by
    rw [Parts.decos] at hc
    rcases List.mem_append.1 hc with hc | hc
    · split at hc
      · rw [(gapDecos_around hc).2.1]; exact hr
      · cases hc
    · exact Parts.decos_ref ps _ _ _ _ _ _ hr c hc
  | .sub y ps, x, r, i, prec, inside, prev, hr, c, hc => by
    rw [Parts.decos] at hc
    rcases List.mem_append.1 hc with hc | hc
    · rcases List.mem_append.1 hc with hc | hc
      · rw [(subDecos_around hc).2.1]; exact hr
      · exact View.decos_ref y _ _ (by simp) c hc
    · exact Parts.decos_ref ps _ _ _ _ _ _ hr c hc
end

/-- Comments among statements and the end of the file. -/
theorem decos_statements (x : View) (hx : x.kind = .rRoot) (eof : Token) : ∀ (es : Exprs) (i : Nat)
    (prec : Option (Nat × View)) (inside : Bool) (prev : Option Token),
    (es ≠ .nil ∨ prec.isSome) → ∀ c ∈ (es.view eof).decos x [] i prec inside prev, c.below
  | .nil, i, prec, inside, prev, h, c, hc => by
    have hp : prec.isSome := h.resolve_left (fun h => h rfl)
    rw [Exprs.view, Parts.one, Parts.decos, Parts.decos, List.append_nil] at hc
    split at hc
    · obtain ⟨h1, -, h3, -⟩ := gapDecos_around hc
      exact .inr ⟨by rw [h1]; exact hx, .inl (by rw [h3]; exact hp)⟩
    · cases hc
  | .cons e es, i, prec, inside, prev, _, c, hc => by
    rw [Exprs.view, Parts.decos] at hc
    rcases List.mem_append.1 hc with hc | hc
    · rcases List.mem_append.1 hc with hc | hc
      · obtain ⟨h1, -, -, h4⟩ := subDecos_around hc
        exact .inr ⟨by rw [h1]; exact hx, .inr (by rw [h4]; rfl)⟩
      · exact .inl (View.decos_ref _ _ _ (by simp) c hc)
    · exact decos_statements x hx eof es _ _ _ _ (.inr rfl) c hc

/-- All comments of a file with statements are attached to parts of it. -/
theorem attach_ann (x : Root) (hne : x.es ≠ .nil) : x.attach.ann = {} := by
  have h : ∀ w, x.placed.filter (fun p => p.to == ⟨w, []⟩) = [] := by
    intro w
    rw [List.filter_eq_nil_iff]
    intro p hp
    obtain ⟨c, hc, rfl⟩ := List.mem_map.1 hp
    have hb : c.below := decos_statements _ rfl x.eof x.es 0 none true none (.inl hne) c hc
    have ht : c.placed.to.target ≠ [] := placeComment_target hb
    intro he
    rw [eq_of_beq he] at ht
    exact ht rfl
  show annAt x.placed [] = {}
  unfold annAt
  simp only [h]
  rfl

/-- The comments of a file without statements dangle. -/
theorem decos_empty (x : Root) (he : x.es = .nil) : ∀ c ∈ x.view.decos [] true,
    c.enclosing.kind = .rRoot ∧ c.ref = [] ∧ c.preceding = none ∧ c.following = none := by
  intro c hc
  have hv : x.view = .node .rRoot (.one x.eof) := by unfold Root.view; rw [he]; rfl
  rw [hv, View.decos, Parts.one, Parts.decos, Parts.decos, List.append_nil, if_pos rfl] at hc
  obtain ⟨h1, h2, h3, h4⟩ := gapDecos_around hc
  exact ⟨by rw [h1]; rfl, h2, h3, h4⟩

theorem placeComment_empty {c : Deco} (h1 : c.enclosing.kind = .rRoot) (h2 : c.ref = [])
    (h3 : c.preceding = none) (h4 : c.following = none) : placeComment c = ⟨.dangling, []⟩ := by
  have hd : placeDefault c = ⟨.dangling, []⟩ := by
    unfold placeDefault
    rw [h3, h4, h2]
    cases c.position <;> rfl
  have hl : ∀ k n, k ≠ .rRoot → handleLoop k n c = none := by
    intro k n hk
    unfold handleLoop
    rw [h1, if_neg (fun h => hk h.symm)]
  have e1 : handleHole c = none := by unfold handleHole; rw [h3]
  have e2 : handleArgument c = none := by unfold handleArgument; rw [h1, if_neg (fun h => by cases h.1)]
  have e3 : handleNameClause c = none := by
    unfold handleNameClause; rw [h1, if_neg (fun h => by cases h.1)]
  have e4 : handleParen c = none := by unfold handleParen; rw [h1, if_neg (by decide)]
  have e5 : handleElse c = none := by unfold handleElse; rw [h1, if_neg (by decide)]
  have e6 : handleIf c = none := by unfold handleIf; rw [h1, if_neg (by decide)]
  have e7 : handleRepeat c = none := by unfold handleRepeat; rw [h1, if_neg (by decide)]
  have e8 : handleFunction c = none := by unfold handleFunction; rw [h1, if_neg (by decide)]
  unfold placeComment
  split
  · exact hd
  · simp only [orElse, e1, e2, e3, e4, e5, e6, e7, e8, hl _ _ (show Kind.rWhileStatement ≠ .rRoot by decide),
      hl _ _ (show Kind.rForStatement ≠ .rRoot by decide), Option.getD, hd]

theorem attach_dangling (x : Root) (he : x.es = .nil) (hc : x.sourceComments ≠ []) :
    ∃ c cs, x.attach.ann = ⟨[], c :: cs, []⟩ := by
  have hp : ∀ p ∈ x.placed, p.to = ⟨.dangling, []⟩ := by
    intro p hp
    obtain ⟨c, hc, rfl⟩ := List.mem_map.1 hp
    obtain ⟨h1, h2, h3, h4⟩ := decos_empty x he c hc
    exact placeComment_empty h1 h2 h3 h4
  have hne : x.placed ≠ [] := by
    intro h
    unfold Root.placed at h
    rw [List.map_eq_nil_iff] at h
    apply hc
    rw [← root_decos, h]
    rfl
  have hf : ∀ w, w ≠ .dangling → x.placed.filter (fun p => p.to == ⟨w, []⟩) = [] := by
    intro w hw
    rw [List.filter_eq_nil_iff]
    intro p h he
    rw [hp p h] at he
    have := eq_of_beq he
    injection this with h' _
    exact hw h'.symm
  have hfd : x.placed.filter (fun p => p.to == ⟨.dangling, []⟩) = x.placed := by
    rw [List.filter_eq_self]
    intro p h
    rw [hp p h]
    rfl
  obtain ⟨p, ps, hps⟩ := List.exists_cons_of_ne_nil hne
  refine ⟨p.comment, ps.map Placed.comment, ?_⟩
  show annAt x.placed [] = _
  unfold annAt
  simp only [hf .leading (by decide), hf .trailing (by decide), hfd, List.map_nil]
  rw [hps]
  rfl

end Verif.Format
