import Verif.Spec.Arguments
import Verif.Lemmas.Statements
import Verif.Lemmas.StatementsBlock
import Verif.Lemmas.StatementsFind

/-!
# Comments stay with their arguments
-/

namespace Verif.Format
open Verif.Syntax

/-! ## Tokens -/

theorem commentsEnd_tail {t : Token} {ts : List Token} (h : commentsEnd (t :: ts)) : commentsEnd ts := by
  cases ts with
  | nil => trivial
  | cons u ts => exact h.2

theorem commentsEnd_append : ∀ {a b : List Token}, commentsEnd (a ++ b) → commentsEnd a ∧ commentsEnd b
  | [], _, h => ⟨trivial, h⟩
  | [t], b, h => ⟨trivial, commentsEnd_tail h⟩
  | t :: u :: a, b, h => by
    have := commentsEnd_append (a := u :: a) (b := b) h.2
    exact ⟨⟨h.1, this.1⟩, this.2⟩

/-- Tokens that end an argument. -/
def ender (k : Kind) : Prop := k = .comma ∨ k = .rParen ∨ k = .rBrack ∨ k = .rBrack2

theorem atom_not_ender {k k' : Kind} (h : atomKind k = some k') : ¬ ender k := by
  rintro (rfl | rfl | rfl | rfl) <;> cases h

theorem kind_not_ender {k k' : Kind} (h : (k == k') = true) (hk : k' ≠ .comma ∧ k' ≠ .rParen ∧ k' ≠ .rBrack ∧ k' ≠ .rBrack2) :
    ¬ ender k := by
  rw [eq_of_beq h]
  rintro (rfl | rfl | rfl | rfl) <;> simp at hk

theorem str_not_ender {p l : Token} {c : Option Token} (h : strKinds p c l = true) : ¬ ender p.kind := by
  simp only [strKinds, Bool.and_eq_true] at h
  exact kind_not_ender h.1.1 (by decide)

theorem selector_first {e : Expr} (h : e.selector = true) : ∀ u ∈ e.tokens.head?, ¬ ender u.kind := by
  intro u hu
  cases e <;> first | (cases h; done) | skip
  · simp only [Expr.selector, Bool.and_eq_true, beq_iff_eq] at h
    simp [Expr.tokens] at hu
    subst hu
    exact atom_not_ender h.1
  · simp [Expr.tokens] at hu
    subst hu
    exact str_not_ender h

theorem argName_first {e : Expr} (h : e.argName = true) : ∀ u ∈ e.tokens.head?, ¬ ender u.kind := by
  intro u hu
  cases e <;> first | (cases h; done) | skip
  · simp only [Expr.argName, Bool.and_eq_true, beq_iff_eq] at h
    simp [Expr.tokens] at hu
    subst hu
    exact atom_not_ender h.1
  · simp [Expr.tokens] at hu
    subst hu
    exact str_not_ender h

theorem parName_first {e : Expr} (h : e.parName = true) : ∀ u ∈ e.tokens.head?, ¬ ender u.kind := by
  intro u hu
  cases e <;> first | (cases h; done) | skip
  simp only [Expr.parName, Bool.and_eq_true, beq_iff_eq] at h
  simp [Expr.tokens] at hu
  subst hu
  exact atom_not_ender h.1

theorem head_app {e : Expr} {b : List Token} : (e.tokens ++ b).head? = e.tokens.head? := by
  obtain ⟨t, ts, h⟩ := List.exists_cons_of_ne_nil (tokens_ne_nil e)
  rw [h]; rfl

/-- An expression begins with a token that ends no argument. -/
theorem gram_opens : (e : Expr) → (g : Bool) → e.gram g = true → ∀ u ∈ e.tokens.head?, ¬ ender u.kind
  | .atom _ k t, g, h => by
    intro u hu
    simp [Expr.tokens] at hu
    subst hu
    exact atom_not_ender (by simpa [Expr.gram] using h)
  | .str _ p c l, g, h => by
    intro u hu
    simp [Expr.tokens] at hu
    subst hu
    exact str_not_ender h
  | .paren _ l e r, g, h => by
    intro u hu
    simp only [Expr.gram, Bool.and_eq_true] at h
    simp [Expr.tokens] at hu
    subst hu
    exact kind_not_ender h.1.1 (by decide)
  | .braced _ l e r, g, h => by
    intro u hu
    simp only [Expr.gram, Bool.and_eq_true] at h
    simp [Expr.tokens] at hu
    subst hu
    exact kind_not_ender h.1.1 (by decide)
  | .unary _ p e, g, h => by
    intro u hu
    simp only [Expr.gram] at h
    simp [Expr.tokens] at hu
    subst hu
    rintro (hk | hk | hk | hk) <;> · rw [hk] at h; cases h
  | .binary _ x p y, g, h => by
    simp only [Expr.gram] at h
    split at h
    · simp only [Bool.and_eq_true] at h
      rw [Expr.tokens, head_app]
      exact gram_opens x _ h.1.1.1.1
    · cases h
  | .sel _ .extract x p y, g, h => by
    simp only [Expr.gram, Bool.and_eq_true] at h
    rw [Expr.tokens, head_app]
    exact gram_opens x _ h.1.1.1
  | .sel _ .namespace x p y, g, h => by
    simp only [Expr.gram, Bool.and_eq_true] at h
    rw [Expr.tokens, head_app]
    exact selector_first h.1.1
  | .call _ k f _ l items r, g, h => by
    simp only [Expr.gram, Bool.and_eq_true] at h
    rw [Expr.tokens, head_app]
    exact gram_opens f _ h.1.1.1.1
  | .func _ kw _ l items r b, g, h => by
    intro u hu
    simp only [Expr.gram, Bool.and_eq_true, Bool.or_eq_true] at h
    simp [Expr.tokens] at hu
    subst hu
    rcases h.1.1.1.1.1 with h | h
    · exact kind_not_ender h (by decide)
    · exact kind_not_ender h (by decide)
  | .ite _ kw l c r t, g, h => by
    intro u hu
    simp only [Expr.gram, Bool.and_eq_true] at h
    simp [Expr.tokens] at hu
    subst hu
    exact kind_not_ender h.1.1.1.1.1 (by decide)
  | .itee _ kw l c r t _ el e, g, h => by
    intro u hu
    simp only [Expr.gram, Bool.and_eq_true] at h
    simp [Expr.tokens] at hu
    subst hu
    exact kind_not_ender h.1.1.1.1.1.1.1.1.1 (by decide)
  | .for_ _ kw l v i s r b, g, h => by
    intro u hu
    simp only [Expr.gram, Bool.and_eq_true] at h
    simp [Expr.tokens] at hu
    subst hu
    exact kind_not_ender h.1.1.1.1.1.1.1 (by decide)
  | .while_ _ kw l c r b, g, h => by
    intro u hu
    simp only [Expr.gram, Bool.and_eq_true] at h
    simp [Expr.tokens] at hu
    subst hu
    exact kind_not_ender h.1.1.1.1.1 (by decide)
  | .repeat_ _ kw b, g, h => by
    intro u hu
    simp only [Expr.gram, Bool.and_eq_true] at h
    simp [Expr.tokens] at hu
    subst hu
    exact kind_not_ender h.1.1 (by decide)

/-- What is needed of an argument. -/
def Arg.Fit (call : Bool) (x : Arg) : Prop :=
  (x.isHole = true → call = true) ∧ ∀ u ∈ x.tokens.head?, ¬ ender u.kind

theorem gramArg_fit {x : Arg} (h : x.gramArg = true) : x.Fit true := by
  refine ⟨fun _ => rfl, ?_⟩
  cases x with
  | hole a => nofun
  | val a e => exact gram_opens e _ h
  | name a na n q =>
    simp only [Arg.gramArg, Bool.and_eq_true] at h
    rw [Arg.tokens, head_app]; exact argName_first h.1
  | named a na n q e =>
    simp only [Arg.gramArg, Bool.and_eq_true] at h
    rw [Arg.tokens, head_app]; exact argName_first h.1.1
  | pdef a n da q e => cases h

theorem gramPar_fit {x : Arg} (h : x.gramPar = true) : x.Fit false := by
  cases x with
  | hole a => cases h
  | val a e => exact ⟨nofun, parName_first h⟩
  | name a na n q => cases h
  | named a na n q e => cases h
  | pdef a n da q e =>
    simp only [Arg.gramPar, Bool.and_eq_true] at h
    refine ⟨nofun, ?_⟩
    rw [Arg.tokens, head_app]; exact parName_first h.1.1

/-- What is needed of arguments. -/
def Items.Fit (call : Bool) : Items → Prop
  | .nil => False
  | .last x => x.Fit call
  | .cons x s xs => x.Fit call ∧ s.kind = .comma ∧ xs.Fit call

theorem gramArgs_fit : (xs : Items) → (b : Bool) → xs.gramArgs b = true → xs ≠ .nil → xs.Fit true
  | .nil, _, _, h => h rfl
  | .last x, _, h, _ => by
    simp only [Items.gramArgs, Bool.and_eq_true] at h
    exact gramArg_fit h.1
  | .cons x s xs, _, h, _ => by
    simp only [Items.gramArgs, Bool.and_eq_true, beq_iff_eq] at h
    exact ⟨gramArg_fit h.1.1, h.1.2, gramArgs_fit xs false h.2 (by rintro rfl; exact absurd h.2 (by simp [Items.gramArgs]))⟩

theorem gramPars1_fit : (xs : Items) → xs.gramPars1 = true → xs.Fit false
  | .nil, h => by cases h
  | .last x, h => gramPar_fit h
  | .cons x s xs, h => by
    simp only [Items.gramPars1, Bool.and_eq_true, beq_iff_eq] at h
    exact ⟨gramPar_fit h.1.1, h.1.2, gramPars1_fit xs h.2⟩

theorem gramPars_fit (xs : Items) (h : xs.gramPars = true) (hne : xs ≠ .nil) : xs.Fit false := by
  cases xs with
  | nil => exact absurd rfl hne
  | last x => exact gramPar_fit h
  | cons x s xs =>
    simp only [Items.gramPars, Bool.and_eq_true, beq_iff_eq] at h
    exact ⟨gramPar_fit h.1.1, h.1.2, gramPars1_fit xs h.2⟩

/-! ## Placement -/

/-- Nodes with arguments or parameters. -/
def listKind (k : Kind) : Prop :=
  k = .rCallArguments ∨ k = .rSubsetArguments ∨ k = .rSubset2Arguments ∨ k = .rParameters

theorem place_list {c : Deco} (hk : listKind c.enclosing.kind) (hp : c.position ≠ .sameLine ∨ handleHole c = none) :
    placeComment c = (handleHole c).getD (placeDefault c) := by
  have hn : ∀ k, ¬ listKind k → c.enclosing.kind ≠ k := by
    intro k h1 h
    exact h1 (h ▸ hk)
  have hl : ∀ k n, ¬ listKind k → handleLoop k n c = none := by
    intro k n h1
    unfold handleLoop
    rw [if_neg (hn k h1)]
  have no : ∀ k, k ≠ .rCallArguments → k ≠ .rSubsetArguments → k ≠ .rSubset2Arguments → k ≠ .rParameters → ¬ listKind k := by
    rintro k h1 h2 h3 h4 (h | h | h | h)
    · exact h1 h
    · exact h2 h
    · exact h3 h
    · exact h4 h
  have e2 : handleArgument c = none := by
    unfold handleArgument
    rw [if_neg (fun h => hn _ (no _ (by decide) (by decide) (by decide) (by decide)) h.1)]
  have e3 : handleNameClause c = none := by
    unfold handleNameClause
    rw [if_neg (fun h => hn _ (no _ (by decide) (by decide) (by decide) (by decide)) h.1)]
  have e4 : handleParen c = none := by
    unfold handleParen; rw [if_neg (hn _ (no _ (by decide) (by decide) (by decide) (by decide)))]
  have e5 : handleElse c = none := by
    unfold handleElse; rw [if_neg (hn _ (no _ (by decide) (by decide) (by decide) (by decide)))]
  have e6 : handleIf c = none := by
    unfold handleIf; rw [if_neg (hn _ (no _ (by decide) (by decide) (by decide) (by decide)))]
  have e7 : handleRepeat c = none := by
    unfold handleRepeat; rw [if_neg (hn _ (no _ (by decide) (by decide) (by decide) (by decide)))]
  have e8 : handleFunction c = none := by
    unfold handleFunction; rw [if_neg (hn _ (no _ (by decide) (by decide) (by decide) (by decide)))]
  have key : (orElse c handleHole <| orElse c handleArgument <| orElse c handleNameClause <|
      orElse c handleParen <| orElse c handleElse <| orElse c handleIf <| orElse c handleRepeat <|
      orElse c (handleLoop .rWhileStatement 4) <| orElse c handleFunction <|
      handleLoop .rForStatement 6 c) = handleHole c := by
    simp only [orElse, e2, e3, e4, e5, e6, e7, e8,
      hl .rWhileStatement 4 (no _ (by decide) (by decide) (by decide) (by decide)),
      hl .rForStatement 6 (no _ (by decide) (by decide) (by decide) (by decide))]
  unfold placeComment
  rw [key]
  split
  · rename_i hs
    rcases hp with hp | hp
    · exact absurd hs hp
    · rw [hp]; rfl
  · rfl

theorem prevSub_below : ∀ (ps : Parts) (n k : Nat), n ≤ k → ps.prevSub n k = none
  | .nil, _, _, _ => rfl
  | .tok _ ps, n, k, h => by rw [Parts.prevSub, if_neg (by omega)]
  | .sub _ ps, n, k, h => by rw [Parts.prevSub, if_neg (by omega)]

/-- The node before a token, seen from what comes after it. -/
theorem prevSub_slot : ∀ (ps : Parts) (i k : Nat) (y : View), ps.slot i = some y → ps.slot (i + 1) = none →
    ps.prevSub (k + i + 2) k = some (k + i, y)
  | .nil, i, k, y, h, _ => by cases i <;> cases h
  | .tok t ps, 0, k, y, h, _ => by cases h
  | .tok t ps, i + 1, k, y, h, h' => by
    rw [Parts.prevSub, if_pos (by omega)]
    have := prevSub_slot ps i (k + 1) y h h'
    rw [show k + (i + 1) + 2 = k + 1 + i + 2 by omega, this, show k + 1 + i = k + (i + 1) by omega]
  | .sub z ps, 0, k, y, h, h' => by
    rw [Parts.prevSub, if_pos (by omega)]
    have h0 : ps.slot 0 = none := h'
    have : ps.prevSub (k + 0 + 2) (k + 1) = none := by
      cases ps with
      | nil => rfl
      | tok t ps => rw [Parts.prevSub, if_pos (by omega), prevSub_below _ _ _ (by omega)]
      | sub z ps => cases h0
    rw [this]
    cases h
    rfl
  | .sub z ps, i + 1, k, y, h, h' => by
    rw [Parts.prevSub, if_pos (by omega)]
    have := prevSub_slot ps i (k + 1) y h h'
    rw [show k + (i + 1) + 2 = k + 1 + i + 2 by omega, this, show k + 1 + i = k + (i + 1) by omega]

theorem argView_kind (call : Bool) (x : Arg) : (x.view call).kind = if call then .rArgument else .rParameter := by
  cases x <;> rfl

theorem argView_hole {call : Bool} {x : Arg} (h : x.Fit call) : (x.view call).isHole = x.isHole := by
  cases x with
  | hole a => rw [h.1 rfl]; rfl
  | val a e => cases call <;> rfl
  | name a na n q => cases call <;> rfl
  | named a na n q e => cases call <;> rfl
  | pdef a n da q e => cases call <;> rfl

theorem arg_tokens_ne {x : Arg} (h : x.isHole = false) : x.tokens ≠ [] := by
  cases x with
  | hole a => cases h
  | val a e => exact tokens_ne_nil e
  | name a na n q => simp [Arg.tokens]
  | named a na n q e => simp [Arg.tokens]
  | pdef a n da q e => simp [Arg.tokens]

/-- All of the comments go to one place. -/
def Sent (w : Where) (q : Ref) (D : List Deco) : Prop := ∀ d ∈ D, placeComment d = ⟨w, q⟩

/-- The texts of comments that are placed so. -/
def sentTexts (w : Where) (q : Ref) (D : List Deco) : List (List Byte) :=
  (D.filter fun d => placeComment d == ⟨w, q⟩).map Deco.text

theorem sentTexts_append (w : Where) (q : Ref) (a b : List Deco) :
    sentTexts w q (a ++ b) = sentTexts w q a ++ sentTexts w q b := by
  simp [sentTexts]

theorem sentTexts_self {w : Where} {q : Ref} {D : List Deco} (h : Sent w q D) : sentTexts w q D = D.map Deco.text := by
  rw [sentTexts, List.filter_eq_self.2]
  intro d hd
  rw [h d hd]
  exact beq_self_eq_true _

theorem sentTexts_other {w v : Where} {q r : Ref} {D : List Deco} (h : Sent v r D) (hne : w ≠ v ∨ q ≠ r) :
    sentTexts w q D = [] := by
  rw [sentTexts, List.filter_eq_nil_iff.2]
  · rfl
  · intro d hd he
    have := eq_of_beq he
    rw [h d hd] at this
    cases this
    rcases hne with h | h <;> exact h rfl

theorem sentTexts_none {w : Where} {q : Ref} {D : List Deco} (h : ∀ d ∈ D, ¬ q <+: (placeComment d).target) :
    sentTexts w q D = [] := by
  rw [sentTexts, List.filter_eq_nil_iff.2]
  · rfl
  · intro d hd he
    refine h d hd ?_
    rw [eq_of_beq he]
    exact List.prefix_refl _

/-- What comes before the arguments: nothing, or an argument two positions before. -/
structure ArgBefore (call : Bool) (z : View) (i : Nat) (prec : Option (Nat × View)) : Prop where
  prev : z.parts.prevSub i 0 = prec
  pos : ∀ j y, prec = some (j, y) → j + 2 = i ∧ y.kind = if call then .rArgument else .rParameter

/-- Whether the argument before was left out. -/
def gone (prec : Option (Nat × View)) : Option Bool := prec.map fun y => y.2.isHole

/-- The comments before an argument (`G1` goes to the argument before), in it, after it. -/
structure Pieces (call : Bool) (q : Ref) (i : Nat) (prec : Option (Nat × View)) (x : Arg) (ps : List Piece)
    (beyond : List (List Byte) × List (List Byte)) (E G1 G2 S1 S2 E' : List Deco) : Prop where
  eq : E = G1 ++ G2 ++ (x.view call).decos (q ++ [i]) false ++ S1 ++ S2 ++ E'
  first : prec = none → G1 = []
  back : ∀ j y, prec = some (j, y) → Sent .trailing (q ++ [j]) G1
  backTexts : G1.map Deco.text = (divide (gone prec) x ps).1
  ahead : Sent .leading (q ++ [i]) G2
  aheadTexts : G2.map Deco.text = (divide (gone prec) x ps).2
  behind : Sent .trailing (q ++ [i]) S1
  behindTexts : S1.map Deco.text = beyond.1
  onward : Sent .leading (q ++ [i + 2]) S2
  onwardTexts : S2.map Deco.text = beyond.2

theorem gap_broken {x : View} {r : Ref} {g : Nat} {p f : Option (Nat × View)} {t u : Token} {d : Deco}
    (hc : commentTexts (t.trailing ++ u.leading) ≠ [] →
      (t.trailing ++ u.leading).any (fun p => p.kind == .newline) = true)
    (hd : d ∈ gapDecos x r g p f (some t) u) : d.position ≠ .sameLine := by
  have hne : commentTexts (t.trailing ++ u.leading) ≠ [] := by
    intro h0
    have := gapDecos_texts x r g p f (some t) u
    rw [show trailingOf (some t) = t.trailing from rfl, h0, List.map_eq_nil_iff] at this
    rw [this] at hd
    cases hd
  have hn : (trailingOf (some t) ++ u.leading).any (fun p => p.kind == .newline) = true := hc hne
  unfold gapDecos at hd
  simp only [List.mem_map] at hd
  obtain ⟨c, -, rfl⟩ := hd
  show (if c.own then Position.ownLine else if _ then _ else _) ≠ _
  rw [if_pos hn]
  split <;> simp

theorem gap_token {x : View} {r : Ref} {g : Nat} {p f : Option (Nat × View)} {prev : Option Token} {u : Token} {d : Deco}
    (hd : d ∈ gapDecos x r g p f prev u) : d.followingToken = u.kind := by
  unfold gapDecos at hd
  simp only [List.mem_map] at hd
  obtain ⟨c, -, rfl⟩ := hd
  rfl

/-- The comments before an argument that is there. -/
theorem gap_before {call : Bool} {z : View} {q : Ref} {i : Nat} {prec : Option (Nat × View)} {x : Arg} {t u : Token}
    (hz : listKind z.kind) (hb : ArgBefore call z i prec) (hx : x.Fit call) (hh : x.isHole = false)
    (hu : x.tokens.head? = some u)
    (hc : commentTexts (t.trailing ++ u.leading) ≠ [] →
      (t.trailing ++ u.leading).any (fun p => p.kind == .newline) = true)
    (hpc : ∀ j y, prec = some (j, y) → y.isHole = true → call = true) :
    ∃ G1 G2, gapDecos z q i prec (some (i, x.view call)) (some t) u = G1 ++ G2 ∧ (prec = none → G1 = []) ∧
      (∀ j y, prec = some (j, y) → Sent .trailing (q ++ [j]) G1) ∧
      G1.map Deco.text = (divide (gone prec) x (t.trailing ++ triviaBefore x.tokens)).1 ∧
      Sent .leading (q ++ [i]) G2 ∧ G2.map Deco.text = (divide (gone prec) x (t.trailing ++ triviaBefore x.tokens)).2 := by
  have hbt : triviaBefore x.tokens = u.leading := by
    cases ht : x.tokens with
    | nil => rw [ht] at hu; cases hu
    | cons a b => rw [ht] at hu; cases hu; rfl
  rw [hbt]
  cases prec with
  | none =>
    refine ⟨[], _, (List.nil_append _).symm, fun _ => rfl, nofun, rfl, ?_, ?_⟩
    · intro d hd
      obtain ⟨k1, k2, k3, k4, k5⟩ := gapDecos_mem hd
      have h0 : handleHole d = none := by unfold handleHole; rw [k4]
      rw [place_list (by rw [k2]; exact hz) (.inr h0), h0]
      show placeDefault d = _
      unfold placeDefault
      rw [k4, k5, k1]
      cases d.position <;> rfl
    · rw [gapDecos_texts]; rfl
  | some jy =>
    obtain ⟨j, y⟩ := jy
    cases hy : y.isHole with
    | true =>
      refine ⟨[], _, (List.nil_append _).symm, nofun, ?_, by simp [divide, gone, hy], ?_, ?_⟩
      · intro _ _ _ d hd; cases hd
      · intro d hd
        obtain ⟨k1, k2, k3, k4, k5⟩ := gapDecos_mem hd
        have hp := gap_broken hc hd
        have hk := gap_token hd
        have hcall := hpc j y rfl hy
        have h0 : handleHole d = some ⟨.leading, q ++ [i]⟩ := by
          unfold handleHole
          rw [k4]
          simp only [hy, if_true]
          have hno : ¬ (u.kind = .comma ∨ u.kind = .rParen ∨ u.kind = .rBrack ∨ u.kind = .rBrack2) := hx.2 u hu
          rw [hk, if_neg hno, k5]
          simp only [argView_kind, hcall, if_true]
          subst hcall
          rw [if_pos ⟨trivial, by rw [argView_hole hx]; exact hh⟩, k1]
        rw [place_list (by rw [k2]; exact hz) (.inl hp), h0]
        rfl
      · rw [gapDecos_texts]; simp [divide, gone, hy, trailingOf]
    | false =>
      obtain ⟨A, B, g1, g2, g3, g4, g5⟩ := gapDecos_lines z q i (some (j, y)) (some (i, x.view call)) (some t) u
      have hm : ∀ d ∈ gapDecos z q i (some (j, y)) (some (i, x.view call)) (some t) u, placeComment d = placeDefault d := by
        intro d hd
        obtain ⟨k1, k2, k3, k4, k5⟩ := gapDecos_mem hd
        have h0 : handleHole d = none := by
          unfold handleHole; rw [k4]; simp only [hy]; rfl
        rw [place_list (by rw [k2]; exact hz) (.inr h0), h0]
        rfl
      refine ⟨A, B, g1, nofun, ?_, ?_, ?_, ?_⟩
      · intro j' y' he d hd
        cases he
        have hd' : d ∈ gapDecos z q i (some (j, y)) (some (i, x.view call)) (some t) u := by
          rw [g1]; exact List.mem_append_left _ hd
        obtain ⟨k1, k2, k3, k4, k5⟩ := gapDecos_mem hd'
        rw [hm d hd']
        have := g2 d hd
        unfold placeDefault
        rw [k4, k5, k1]
        cases hpos : d.position <;> first | rfl | exact absurd hpos this
      · rw [g4]; simp [divide, gone, hy, hh, trailingOf]
      · intro d hd
        have hd' : d ∈ gapDecos z q i (some (j, y)) (some (i, x.view call)) (some t) u := by
          rw [g1]; exact List.mem_append_right _ hd
        obtain ⟨k1, k2, k3, k4, k5⟩ := gapDecos_mem hd'
        rw [hm d hd']
        unfold placeDefault
        rw [k4, k5, k1, g3 d hd]
      · rw [g5]; simp [divide, gone, hy, hh, trailingOf]

/-- The comments after an argument that is there. -/
theorem gap_after {z y : View} {q : Ref} {i : Nat} {next : Option (Nat × View)} {prev : Option Token} {s : Token}
    (hz : listKind z.kind) (hy : y.isHole = false) (hn : ∀ j v, next = some (j, v) → j = i + 2) :
    ∃ S1 S2, gapDecos z q (i + 1) (some (i, y)) next prev s = S1 ++ S2 ∧ Sent .trailing (q ++ [i]) S1 ∧
      Sent .leading (q ++ [i + 2]) S2 ∧
      (S1.map Deco.text, S2.map Deco.text) =
        if next = none then (commentTexts (trailingOf prev ++ s.leading), [])
        else (lineComments (trailingOf prev ++ s.leading), laterComments (trailingOf prev ++ s.leading)) := by
  have hm : ∀ d ∈ gapDecos z q (i + 1) (some (i, y)) next prev s, placeComment d = placeDefault d := by
    intro d hd
    obtain ⟨k1, k2, k3, k4, k5⟩ := gapDecos_mem hd
    have h0 : handleHole d = none := by
      unfold handleHole; rw [k4]; simp only [hy]; rfl
    rw [place_list (by rw [k2]; exact hz) (.inr h0), h0]
    rfl
  cases next with
  | none =>
    refine ⟨_, [], (List.append_nil _).symm, ?_, nofun, ?_⟩
    · intro d hd
      obtain ⟨k1, k2, k3, k4, k5⟩ := gapDecos_mem hd
      rw [hm d hd]
      unfold placeDefault
      rw [k4, k5, k1]
      cases d.position <;> rfl
    · rw [gapDecos_texts]; rfl
  | some jv =>
    obtain ⟨j, v⟩ := jv
    obtain rfl := hn j v rfl
    obtain ⟨A, B, g1, g2, g3, g4, g5⟩ := gapDecos_lines z q (i + 1) (some (i, y)) (some (i + 2, v)) prev s
    refine ⟨A, B, g1, ?_, ?_, by rw [g4, g5]; rfl⟩
    · intro d hd
      have hd' := hm d (by rw [g1]; exact List.mem_append_left _ hd)
      obtain ⟨k1, k2, k3, k4, k5⟩ := gapDecos_mem (by rw [g1]; exact List.mem_append_left _ hd)
      rw [hd']
      have := g2 d hd
      unfold placeDefault
      rw [k4, k5, k1]
      cases hpos : d.position <;> first | rfl | exact absurd hpos this
    · intro d hd
      have hd' := hm d (by rw [g1]; exact List.mem_append_right _ hd)
      obtain ⟨k1, k2, k3, k4, k5⟩ := gapDecos_mem (by rw [g1]; exact List.mem_append_right _ hd)
      rw [hd']
      unfold placeDefault
      rw [k4, k5, k1, g3 d hd]

/-- Where comments go of an argument that is left out. -/
def wayBack (q : Ref) (i : Nat) : Option (Nat × View) → Placement
  | some (j, y) => if y.isHole = false then ⟨.trailing, q ++ [j]⟩ else ⟨.leading, q ++ [i]⟩
  | none => ⟨.leading, q ++ [i]⟩

/-- The comments around an argument that is left out. -/
theorem gap_hole {z : View} {q : Ref} {i : Nat} {prec next : Option (Nat × View)} {x : Arg} {t s : Token}
    (hz : listKind z.kind) (hb : ArgBefore true z i prec) (hh : x.isHole = true) (hs : ender s.kind)
    (hc : commentTexts (t.trailing ++ s.leading) ≠ [] →
      (t.trailing ++ s.leading).any (fun p => p.kind == .newline) = true) :
    ∃ G1 G2, gapDecos z q (i + 1) (some (i, x.view true)) next (some t) s = G1 ++ G2 ∧ (prec = none → G1 = []) ∧
      (∀ j y, prec = some (j, y) → Sent .trailing (q ++ [j]) G1) ∧
      G1.map Deco.text = (divide (gone prec) x (t.trailing ++ s.leading)).1 ∧
      Sent .leading (q ++ [i]) G2 ∧ G2.map Deco.text = (divide (gone prec) x (t.trailing ++ s.leading)).2 := by
  have hv : (x.view true).isHole = true := by
    cases x <;> first | rfl | cases hh
  have hplace : ∀ d ∈ gapDecos z q (i + 1) (some (i, x.view true)) next (some t) s, placeComment d =
      (wayBack q i prec) := by
    intro d hd
    obtain ⟨k1, k2, k3, k4, k5⟩ := gapDecos_mem hd
    have hp := gap_broken hc hd
    have hk := gap_token hd
    have h0 : handleHole d = some (wayBack q i prec) := by
      unfold handleHole
      rw [k4]
      simp only [hv, if_true]
      have hyes : s.kind = .comma ∨ s.kind = .rParen ∨ s.kind = .rBrack ∨ s.kind = .rBrack2 := hs
      rw [hk, if_pos hyes, k2, hb.prev, k1]
      cases prec with
      | none => rfl
      | some jy =>
        obtain ⟨j, y⟩ := jy
        have := (hb.pos j y rfl).2
        simp only [if_true] at this
        simp only [this, true_and, wayBack]
        split <;> rfl
    rw [place_list (by rw [k2]; exact hz) (.inl hp), h0]
    rfl
  cases prec with
  | none =>
    refine ⟨[], _, (List.nil_append _).symm, fun _ => rfl, nofun, rfl, hplace, ?_⟩
    rw [gapDecos_texts]; rfl
  | some jy =>
    obtain ⟨j, y⟩ := jy
    cases hy : y.isHole with
    | true =>
      refine ⟨[], _, (List.nil_append _).symm, nofun, fun _ _ _ d hd => (by cases hd), by simp [divide, gone, hy], ?_, ?_⟩
      · intro d hd
        rw [hplace d hd]
        simp [wayBack, hy]
      · rw [gapDecos_texts]; simp [divide, gone, hy, trailingOf]
    | false =>
      refine ⟨_, [], (List.append_nil _).symm, nofun, ?_, ?_, nofun, ?_⟩
      · intro j' y' he d hd
        cases he
        rw [hplace d hd]
        simp [wayBack, hy]
      · rw [gapDecos_texts]; simp [divide, gone, hy, hh, trailingOf]
      · simp [divide, gone, hy, hh]

theorem argView_tokens (call : Bool) (x : Arg) : (x.view call).tokens = x.tokens := arg_tokens call x

theorem arg_pieces {call : Bool} {z : View} {q : Ref} {i : Nat} {prec next : Option (Nat × View)} {x : Arg} {t s : Token}
    {ts : List Token} {last : Bool} (E' : List Deco)
    (hz : listKind z.kind) (hb : ArgBefore call z i prec) (hx : x.Fit call) (hs : ender s.kind)
    (hc : commentsEnd (t :: (x.tokens ++ s :: ts)))
    (hpc : ∀ j y, prec = some (j, y) → y.isHole = true → call = true)
    (hn : ∀ j v, next = some (j, v) → j = i + 2) (hl : last = next.isNone) :
    ∃ G1 G2 S1 S2, Pieces call q i prec x (t.trailing ++ x.triviaBefore s) (x.beyond last s)
      (subDecos z q i prec true (some t) (x.view call) ++ (x.view call).decos (q ++ [i]) false ++
        (gapDecos z q (i + 1) (some (i, x.view call)) next ((x.view call).lastOr (some t)) s ++ E')) G1 G2 S1 S2 E' := by
  cases hh : x.isHole with
  | true =>
    obtain rfl := hx.1 hh
    have ht : x.tokens = [] := by cases x <;> first | rfl | cases hh
    rw [ht] at hc
    have hv : x.view true = .node .rArgument .nil := by cases x <;> first | rfl | cases hh
    obtain ⟨G1, G2, h1, h2, h3, h4, h5, h6⟩ := gap_hole (q := q) (next := next) hz hb hh hs hc.1
    have hlast : (x.view true).lastOr (some t) = some t := by rw [hv]; rfl
    have hsub : subDecos z q i prec true (some t) (x.view true) = [] := by rw [hv]; rfl
    have hd : (x.view true).decos (q ++ [i]) false = [] := by rw [hv]; rfl
    refine ⟨G1, G2, [], [], ?_, h2, h3, ?_, h5, ?_, nofun, ?_, nofun, ?_⟩
    · rw [hlast, hsub, hd, h1]; simp
    · rw [h4, Arg.triviaBefore, if_pos hh]
    · rw [h6, Arg.triviaBefore, if_pos hh]
    · rw [Arg.beyond, if_pos hh]; rfl
    · rw [Arg.beyond, if_pos hh]; rfl
  | false =>
    obtain ⟨u, us, hu⟩ := List.exists_cons_of_ne_nil (arg_tokens_ne hh)
    have hfirst : (x.view call).first = some u := by rw [view_first, argView_tokens, hu]; rfl
    have hlast : trailingOf ((x.view call).lastOr (some t)) = triviaAfter x.tokens := by
      unfold View.lastOr triviaAfter
      rw [view_last, argView_tokens]
      cases hl : x.tokens.getLast? with
      | none => rw [List.getLast?_eq_none_iff] at hl; exact absurd hl (arg_tokens_ne hh)
      | some u => rfl
    have hsub : subDecos z q i prec true (some t) (x.view call) =
        gapDecos z q i prec (some (i, x.view call)) (some t) u := by
      unfold subDecos; rw [hfirst]; rfl
    have hc1 : commentTexts (t.trailing ++ u.leading) ≠ [] →
        (t.trailing ++ u.leading).any (fun p => p.kind == .newline) = true := by
      rw [hu] at hc; exact hc.1
    obtain ⟨G1, G2, h1, h2, h3, h4, h5, h6⟩ := gap_before (q := q) hz hb hx hh (by rw [hu]; rfl) hc1 hpc
    obtain ⟨S1, S2, g1, g2, g3, g4⟩ := gap_after (q := q) (prev := (x.view call).lastOr (some t)) (s := s) hz
      (y := x.view call) (by rw [argView_hole hx]; exact hh) hn
    rw [hlast] at g4
    have hbe : x.beyond last s = (S1.map Deco.text, S2.map Deco.text) := by
      rw [g4, Arg.beyond, hh, hl]
      cases next <;> rfl
    refine ⟨G1, G2, S1, S2, ?_, h2, h3, ?_, h5, ?_, g2, ?_, g3, ?_⟩
    · rw [hsub, h1, g1]; simp
    · rw [h4, Arg.triviaBefore, hh]; rfl
    · rw [h6, Arg.triviaBefore, hh]; rfl
    · rw [hbe]
    · rw [hbe]

theorem ArgBefore.next {call : Bool} {z : View} {i : Nat} {x : Arg} {s : Token} {ps : Parts}
    (h : (Parts.sub (x.view call) (.tok s ps)).At z i) : ArgBefore call z (i + 2) (some (i, x.view call)) where
  prev := by
    have := prevSub_slot z.parts i 0 (x.view call) h.sub.1 (by rw [h 1]; rfl)
    rw [Nat.zero_add] at this
    exact this
  pos := by
    intro j y he
    cases he
    exact ⟨rfl, argView_kind call x⟩

theorem firstSub_items (call : Bool) (t : Token) (i : Nat) (xs : Items) (h : xs ≠ .nil) :
    ∃ y, (xs.view call t).firstSub i = some (i, y) := by
  cases xs with
  | nil => exact absurd rfl h
  | last x => exact ⟨_, rfl⟩
  | cons x s xs => exact ⟨_, rfl⟩

theorem Items.Fit.ne {call : Bool} {xs : Items} (h : xs.Fit call) : xs ≠ .nil := by
  rintro rfl; exact h

theorem pieces_cons {call : Bool} {z : View} {q : Ref} {i : Nat} {prec : Option (Nat × View)} {x : Arg} {t s r : Token}
    {xs : Items} (hz : listKind z.kind) (hb : ArgBefore call z i prec) (hx : (Items.cons x s xs).Fit call)
    (hc : commentsEnd (t :: ((Items.cons x s xs).tokens ++ [r])))
    (hpc : ∀ j y, prec = some (j, y) → y.isHole = true → call = true) :
    ∃ G1 G2 S1 S2, Pieces call q i prec x (t.trailing ++ x.triviaBefore s) (x.beyond false s)
      (((Items.cons x s xs).view call r).decos z q i prec true (some t)) G1 G2 S1 S2
      ((xs.view call r).decos z q (i + 2) (some (i, x.view call)) true (some s)) := by
  obtain ⟨y, hy⟩ := firstSub_items call r (i + 2) xs hx.2.2.ne
  have hc' : commentsEnd (t :: (x.tokens ++ s :: (xs.tokens ++ [r]))) := by
    simpa [Items.tokens] using hc
  obtain ⟨G1, G2, S1, S2, h⟩ := arg_pieces (q := q) (next := (xs.view call r).firstSub (i + 2)) (last := false)
    ((xs.view call r).decos z q (i + 2) (some (i, x.view call)) true (some s)) hz hb hx.1
    (.inl hx.2.1) hc' hpc (by rw [hy]; intro j v he; cases he; rfl) (by rw [hy]; rfl)
  refine ⟨G1, G2, S1, S2, ?_⟩
  rw [Items.view, Parts.decos, Parts.decos]
  simp only [Bool.true_or, if_true]
  exact h

theorem pieces_last {call : Bool} {z : View} {q : Ref} {i : Nat} {prec : Option (Nat × View)} {x : Arg} {t r : Token}
    (hz : listKind z.kind) (hb : ArgBefore call z i prec) (hx : (Items.last x).Fit call) (hr : ender r.kind)
    (hc : commentsEnd (t :: ((Items.last x).tokens ++ [r])))
    (hpc : ∀ j y, prec = some (j, y) → y.isHole = true → call = true) :
    ∃ G1 G2 S1 S2, Pieces call q i prec x (t.trailing ++ x.triviaBefore r) (x.beyond true r)
      (((Items.last x).view call r).decos z q i prec true (some t)) G1 G2 S1 S2 [] := by
  obtain ⟨G1, G2, S1, S2, h⟩ := arg_pieces (q := q) (next := none) (last := true) [] hz hb hx hr hc hpc nofun rfl
  refine ⟨G1, G2, S1, S2, ?_⟩
  rw [Items.view, Parts.one, Parts.decos, Parts.decos, Parts.decos]
  simp only [Bool.true_or, if_true]
  exact h

/-- Comments in an argument go to parts of it. -/
theorem within_target {call : Bool} {x : Arg} {q : Ref} : ∀ d ∈ (x.view call).decos q false,
    q <+: (placeComment d).target ∧ placeComment d ≠ ⟨.leading, q⟩ ∧ placeComment d ≠ ⟨.trailing, q⟩ := by
  intro d hd
  obtain ⟨q', h1, h2, h3⟩ := view_ok (x.view call) q false nofun d hd
  obtain ⟨s, hs⟩ := fate h3
  have hne : ∀ w, w = .leading ∨ w = .trailing → placeComment d ≠ ⟨w, q⟩ := by
    intro w hw he
    have ht := hs.target
    rw [he, h1] at ht
    have hlen := congrArg List.length ht
    simp only [List.length_append] at hlen
    have hs0 : s = [] := by cases s with | nil => rfl | cons a s => simp at hlen; omega
    have hq0 : q' = [] := by cases q' with | nil => rfl | cons a q' => simp at hlen; omega
    subst hq0
    have h2 : x.view call = d.enclosing := Option.some.inj h2
    rcases hs.own hs0 with ⟨-, hk⟩ | ⟨hk, -⟩
    · rw [← h2, argView_kind call x] at hk
      cases call <;> rcases hk with hk | hk | hk | hk | hk | hk <;> cases hk
    · rw [he] at hk
      rcases hw with rfl | rfl <;> cases hk
  refine ⟨?_, hne _ (.inl rfl), hne _ (.inr rfl)⟩
  rw [hs.target, h1]
  exact ⟨q' ++ s, by simp⟩

theorem annAt_leading (D : List Deco) (q : Ref) : texts (annAt (D.map Deco.placed) q).leading = sentTexts .leading q D := by
  simp only [annAt, texts, sentTexts, List.map_map, List.filter_map]
  rfl

theorem annAt_trailing (D : List Deco) (q : Ref) :
    texts (annAt (D.map Deco.placed) q).trailing = sentTexts .trailing q D := by
  simp only [annAt, texts, sentTexts, List.map_map, List.filter_map]
  rfl

theorem annotateArg_ann (P : List Placed) (x : Arg) (r : Ref) : (x.annotate P r).ann = annAt P r := by
  cases x <;> rfl

theorem sent_perm {q : Ref} : ∀ (Y : List Deco), (∀ d ∈ Y, placeComment d = ⟨.leading, q⟩ ∨ placeComment d = ⟨.trailing, q⟩) →
    (Y.map Deco.text).Perm (sentTexts .leading q Y ++ sentTexts .trailing q Y)
  | [], _ => .refl _
  | d :: Y, h => by
    have ih := sent_perm Y (fun d hd => h d (List.mem_cons_of_mem _ hd))
    rw [show d :: Y = [d] ++ Y from rfl, sentTexts_append, sentTexts_append, List.map_append]
    rcases h d (List.mem_cons_self ..) with h0 | h0
    · have hs : Sent .leading q [d] := by intro e he; cases List.mem_singleton.1 he; exact h0
      rw [sentTexts_self hs, sentTexts_other (w := .trailing) hs (.inl (by decide)), List.nil_append, List.append_assoc]
      exact List.Perm.append_left _ ih
    · have hs : Sent .trailing q [d] := by intro e he; cases List.mem_singleton.1 he; exact h0
      rw [sentTexts_self hs, sentTexts_other (w := .leading) hs (.inl (by decide)), List.nil_append]
      refine (List.Perm.append_left _ ih).trans ?_
      rw [← List.append_assoc, ← List.append_assoc]
      exact List.Perm.append_right _ List.perm_append_comm

/-- An argument with all its comments. -/
theorem arg_comments {call : Bool} {x : Arg} {q : Ref} {D Y0 Y1 : List Deco}
    (hD : D = Y0 ++ (x.view call).decos q false ++ Y1)
    (hY : ∀ d ∈ Y0 ++ Y1, q <+: (placeComment d).target →
      placeComment d = ⟨.leading, q⟩ ∨ placeComment d = ⟨.trailing, q⟩) :
    (texts (x.annotate (D.map Deco.placed) q).comments).Perm
      (sentTexts .leading q D ++ commentTexts (innerTrivia x.tokens) ++ sentTexts .trailing q D) := by
  rw [annotate_arg _ call]
  refine (texts_commentsAt D _ (nodup_refs _ _)).trans ?_
  have hin : ((x.view call).decos q false).filter (fun d => decide ((placeComment d).target ∈ (x.view call).refs q)) =
      (x.view call).decos q false := by
    rw [List.filter_eq_self]
    intro d hd
    rw [decide_eq_true_eq, mem_refs]
    obtain ⟨q', h1, h2, h3⟩ := view_ok (x.view call) q false nofun d hd
    obtain ⟨t, ht⟩ := fate h3
    obtain ⟨y, hy⟩ := ht.node
    refine ⟨q' ++ t, by rw [ht.target, h1]; simp, ?_⟩
    rw [nodeAt_append, h2]
    simp only [hy, Option.isSome_some]
  have hsel : ∀ Y : List Deco, (∀ d ∈ Y, q <+: (placeComment d).target →
      placeComment d = ⟨.leading, q⟩ ∨ placeComment d = ⟨.trailing, q⟩) →
      ((Y.filter (fun d => decide ((placeComment d).target ∈ (x.view call).refs q))).map Deco.text).Perm
        (sentTexts .leading q Y ++ sentTexts .trailing q Y) := by
    intro Y hY
    have e : ∀ w, w = .leading ∨ w = .trailing → sentTexts w q Y =
        sentTexts w q (Y.filter (fun d => decide ((placeComment d).target ∈ (x.view call).refs q))) := by
      intro w _
      unfold sentTexts
      rw [List.filter_filter]
      congr 1
      refine List.filter_congr fun d hd => ?_
      rw [Bool.eq_iff_iff, Bool.and_eq_true, decide_eq_true_eq]
      constructor
      · intro h
        refine ⟨h, ?_⟩
        rw [eq_of_beq h, mem_refs]
        exact ⟨[], by simp, rfl⟩
      · exact fun h => h.1
    rw [e _ (.inl rfl), e _ (.inr rfl)]
    refine sent_perm _ ?_
    intro d hd
    rw [List.mem_filter, decide_eq_true_eq, mem_refs] at hd
    obtain ⟨hd, q', h, -⟩ := hd
    exact hY d hd ⟨q', h.symm⟩
  have hno : ∀ w, w = .leading ∨ w = .trailing → sentTexts w q ((x.view call).decos q false) = [] := by
    intro w hw
    rw [sentTexts, List.filter_eq_nil_iff.2]
    · rfl
    · intro d hd he
      obtain ⟨-, h1, h2⟩ := within_target d hd
      rcases hw with rfl | rfl
      · exact h1 (eq_of_beq he)
      · exact h2 (eq_of_beq he)
  rw [hD]
  simp only [List.filter_append, hin, List.map_append, sentTexts_append, hno _ (.inl rfl), hno _ (.inr rfl), List.append_nil,
    view_decos, argView_tokens, gapsOf_inner]
  have h0 := hsel Y0 (fun d hd => hY d (List.mem_append_left _ hd))
  have h1 := hsel Y1 (fun d hd => hY d (List.mem_append_right _ hd))
  refine (List.Perm.append (List.Perm.append_right _ h0) h1).trans ?_
  refine List.perm_iff_count.2 fun a => ?_
  simp only [List.count_append]
  omega

/-! ## All arguments of a list -/

theorem child_ne {q : Ref} {i j : Nat} (h : i ≠ j) : q ++ [i] ≠ q ++ [j] := by
  intro he
  simp at he
  exact h he

theorem child_not {q : Ref} {i j : Nat} {w : Where} {D : List Deco} (h : Sent w (q ++ [j]) D) (hne : i ≠ j) :
    ∀ d ∈ D, ¬ (q ++ [i]) <+: (placeComment d).target := by
  intro d hd hp
  rw [h d hd] at hp
  exact hne (prefix_child hp (List.prefix_refl _))

theorem inside_not {call : Bool} {x : Arg} {q : Ref} {i j : Nat} (hne : i ≠ j) :
    ∀ d ∈ (x.view call).decos (q ++ [j]) false, ¬ (q ++ [i]) <+: (placeComment d).target :=
  fun d hd hp => hne (prefix_child hp (within_target d hd).1)

/-- Where the comments of the arguments from position `i` on go. -/
def Onward (q : Ref) (i : Nat) (prec : Option (Nat × View)) (d : Deco) : Prop :=
  (∃ j, i ≤ j ∧ (q ++ [j]) <+: (placeComment d).target) ∨
  ∃ j y, prec = some (j, y) ∧ placeComment d = ⟨.trailing, q ++ [j]⟩

theorem pieces_onward {call : Bool} {q : Ref} {i : Nat} {prec : Option (Nat × View)} {x : Arg} {ps : List Piece}
    {b : List (List Byte) × List (List Byte)} {E G1 G2 S1 S2 E' : List Deco}
    (h : Pieces call q i prec x ps b E G1 G2 S1 S2 E')
    (hE : ∀ d ∈ E', Onward q (i + 2) (some (i, x.view call)) d) : ∀ d ∈ E, Onward q i prec d := by
  intro d hd
  rw [h.eq] at hd
  simp only [List.mem_append] at hd
  rcases hd with ((((hd | hd) | hd) | hd) | hd) | hd
  · cases hp : prec with
    | none => rw [h.first hp] at hd; cases hd
    | some jy => exact .inr ⟨jy.1, jy.2, rfl, h.back _ _ hp d hd⟩
  · exact .inl ⟨i, Nat.le_refl _, by rw [h.ahead d hd]; exact List.prefix_refl _⟩
  · exact .inl ⟨i, Nat.le_refl _, (within_target d hd).1⟩
  · exact .inl ⟨i, Nat.le_refl _, by rw [h.behind d hd]; exact List.prefix_refl _⟩
  · exact .inl ⟨i + 2, by omega, by rw [h.onward d hd]; exact List.prefix_refl _⟩
  · rcases hE d hd with ⟨j, hj, hp⟩ | ⟨j, y, he, hp⟩
    · exact .inl ⟨j, by omega, hp⟩
    · cases he
      exact .inl ⟨i, Nat.le_refl _, by rw [hp]; exact List.prefix_refl _⟩

theorem hole_call {call : Bool} {i : Nat} {x : Arg} (h : x.Fit call) : ∀ j y, some (i, x.view call) = some (j, y) →
    y.isHole = true → call = true := by
  intro j y he hy
  cases he
  rw [argView_hole h] at hy
  exact h.1 hy

theorem gone_some {call : Bool} {i : Nat} {x : Arg} (h : x.Fit call) : gone (some (i, x.view call)) = some x.isHole := by
  show some (x.view call).isHole = _
  rw [argView_hole h]

theorem commentsEnd_rest {t s r : Token} {x : Arg} {xs : Items}
    (hc : commentsEnd (t :: ((Items.cons x s xs).tokens ++ [r]))) : commentsEnd (s :: (xs.tokens ++ [r])) := by
  have hc' : commentsEnd ((t :: x.tokens) ++ s :: (xs.tokens ++ [r])) := by
    simpa [Items.tokens] using hc
  exact (commentsEnd_append hc').2

theorem items_onward {call : Bool} {z : View} {q : Ref} {r : Token} (hz : listKind z.kind) (hr : ender r.kind) :
    (xs : Items) → (i : Nat) → (prec : Option (Nat × View)) → (t : Token) → ArgBefore call z i prec → xs.Fit call →
    (xs.view call r).At z i → commentsEnd (t :: (xs.tokens ++ [r])) →
    (∀ j y, prec = some (j, y) → y.isHole = true → call = true) →
    ∀ d ∈ (xs.view call r).decos z q i prec true (some t), Onward q i prec d
  | .nil, _, _, _, _, hf, _, _, _ => hf.elim
  | .last x, i, prec, t, hb, hf, ha, hc, hp => by
    obtain ⟨G1, G2, S1, S2, h⟩ := pieces_last (q := q) hz hb hf hr hc hp
    exact pieces_onward h nofun
  | .cons x s xs, i, prec, t, hb, hf, ha, hc, hp => by
    obtain ⟨G1, G2, S1, S2, h⟩ := pieces_cons (q := q) hz hb hf hc hp
    exact pieces_onward h (items_onward hz hr xs (i + 2) _ s (ArgBefore.next ha) hf.2.2 ha.sub.2.tok (commentsEnd_rest hc)
      (hole_call hf.1))

theorem onward_not {q : Ref} {i j : Nat} {prec : Option (Nat × View)} {D : List Deco} (h : ∀ d ∈ D, Onward q i prec d)
    (hj : j < i) (hp : ∀ k y, prec = some (k, y) → k ≠ j) : ∀ d ∈ D, ¬ (q ++ [j]) <+: (placeComment d).target := by
  intro d hd hpre
  rcases h d hd with ⟨k, hk, h1⟩ | ⟨k, y, he, h1⟩
  · have := prefix_child hpre h1
    omega
  · rw [h1] at hpre
    exact hp k y he (prefix_child (List.prefix_refl _) hpre)

/-- The comments of arguments that go to the argument before. -/
theorem pieces_behind {call : Bool} {q : Ref} {i j : Nat} {y : View} {x : Arg} {ps : List Piece}
    {b : List (List Byte) × List (List Byte)} {E G1 G2 S1 S2 E' : List Deco}
    (h : Pieces call q i (some (j, y)) x ps b E G1 G2 S1 S2 E') (hj : j + 2 = i)
    (hE : ∀ d ∈ E', Onward q (i + 2) (some (i, x.view call)) d) :
    sentTexts .trailing (q ++ [j]) E = (divide (gone (some (j, y))) x ps).1 := by
  rw [h.eq]
  simp only [sentTexts_append]
  rw [sentTexts_self (h.back j y rfl), h.backTexts, sentTexts_other (w := .trailing) h.ahead (.inl (by decide)),
    sentTexts_none (inside_not (by omega)), sentTexts_other h.behind (.inr (child_ne (by omega))),
    sentTexts_other (w := .trailing) h.onward (.inl (by decide)),
    sentTexts_none (onward_not hE (by omega) (by intro k y' he; cases he; omega))]
  simp

theorem items_behind {call : Bool} {z : View} {q : Ref} {r : Token} (hz : listKind z.kind) (hr : ender r.kind)
    {xs : Items} {i j : Nat} {y : View} {t : Token} (hb : ArgBefore call z i (some (j, y))) (hf : xs.Fit call)
    (ha : (xs.view call r).At z i) (hc : commentsEnd (t :: (xs.tokens ++ [r]))) (hp : y.isHole = true → call = true) :
    sentTexts .trailing (q ++ [j]) ((xs.view call r).decos z q i (some (j, y)) true (some t)) =
      (xs.seats (some y.isHole) t.trailing r).1 := by
  have hp' : ∀ j' y', some (j, y) = some (j', y') → y'.isHole = true → call = true := by
    intro j' y' he; cases he; exact hp
  cases xs with
  | nil => exact hf.elim
  | last x =>
    obtain ⟨G1, G2, S1, S2, h⟩ := pieces_last (q := q) hz hb hf hr hc hp'
    exact pieces_behind h (hb.pos _ _ rfl).1 nofun
  | cons x s xs =>
    obtain ⟨G1, G2, S1, S2, h⟩ := pieces_cons (q := q) hz hb hf hc hp'
    exact pieces_behind h (hb.pos _ _ rfl).1 (items_onward hz hr xs (i + 2) _ s (ArgBefore.next ha) hf.2.2 ha.sub.2.tok
      (commentsEnd_rest hc) (hole_call hf.1))

/-- An argument with its comments. -/
theorem pieces_seated {call : Bool} {q : Ref} {i : Nat} {prec : Option (Nat × View)} {x : Arg} {ps : List Piece}
    {b : List (List Byte) × List (List Byte)} {D D0 D2 E G1 G2 S1 S2 E' : List Deco}
    (h : Pieces call q i prec x ps b E G1 G2 S1 S2 E') (hj : ∀ j y, prec = some (j, y) → j + 2 = i)
    (hE : ∀ d ∈ E', Onward q (i + 2) (some (i, x.view call)) d) (hD : D = D0 ++ E ++ D2)
    (h0 : ∀ d ∈ D0, (q ++ [i]) <+: (placeComment d).target → placeComment d = ⟨.leading, q ++ [i]⟩)
    (h2 : ∀ d ∈ D2, ¬ (q ++ [i]) <+: (placeComment d).target) :
    texts (x.annotate (D.map Deco.placed) (q ++ [i])).ann.leading =
      sentTexts .leading (q ++ [i]) D0 ++ (divide (gone prec) x ps).2 ∧
    texts (x.annotate (D.map Deco.placed) (q ++ [i])).ann.trailing = b.1 ++ sentTexts .trailing (q ++ [i]) E' ∧
    (texts (x.annotate (D.map Deco.placed) (q ++ [i])).comments).Perm
      (sentTexts .leading (q ++ [i]) D0 ++ (divide (gone prec) x ps).2 ++ commentTexts (innerTrivia x.tokens) ++
        (b.1 ++ sentTexts .trailing (q ++ [i]) E')) := by
  have hG1 : ∀ d ∈ G1, ¬ (q ++ [i]) <+: (placeComment d).target := by
    cases hp : prec with
    | none => rw [h.first hp]; nofun
    | some jy =>
      have := hj _ _ hp
      exact child_not (h.back _ _ hp) (by omega)
  have hS2 : ∀ d ∈ S2, ¬ (q ++ [i]) <+: (placeComment d).target := child_not h.onward (by omega)
  have hE2 : ∀ d ∈ E', (q ++ [i]) <+: (placeComment d).target → placeComment d = ⟨.trailing, q ++ [i]⟩ := by
    intro d hd hp
    rcases hE d hd with ⟨k, hk, h1⟩ | ⟨k, y, he, h1⟩
    · have := prefix_child hp h1
      omega
    · cases he
      exact h1
  have hE3 : sentTexts .leading (q ++ [i]) E' = [] := by
    rw [sentTexts, List.filter_eq_nil_iff.2]
    · rfl
    · intro d hd he
      have he := eq_of_beq he
      have := hE2 d hd (by rw [he]; exact List.prefix_refl _)
      rw [he] at this
      cases this
  have hD03 : sentTexts .trailing (q ++ [i]) D0 = [] := by
    rw [sentTexts, List.filter_eq_nil_iff.2]
    · rfl
    · intro d hd he
      have he := eq_of_beq he
      have := h0 d hd (by rw [he]; exact List.prefix_refl _)
      rw [he] at this
      cases this
  have hI : ∀ w, w = .leading ∨ w = .trailing → sentTexts w (q ++ [i]) ((x.view call).decos (q ++ [i]) false) = [] := by
    intro w hw
    rw [sentTexts, List.filter_eq_nil_iff.2]
    · rfl
    · intro d hd he
      obtain ⟨-, k1, k2⟩ := within_target d hd
      rcases hw with rfl | rfl
      · exact k1 (eq_of_beq he)
      · exact k2 (eq_of_beq he)
  have hlead : sentTexts .leading (q ++ [i]) D = sentTexts .leading (q ++ [i]) D0 ++ (divide (gone prec) x ps).2 := by
    rw [hD, h.eq]
    simp only [sentTexts_append]
    rw [sentTexts_none hG1, sentTexts_self h.ahead, h.aheadTexts, hI _ (.inl rfl),
      sentTexts_other (w := .leading) h.behind (.inl (by decide)), sentTexts_none hS2, hE3, sentTexts_none h2]
    simp
  have htrail : sentTexts .trailing (q ++ [i]) D = b.1 ++ sentTexts .trailing (q ++ [i]) E' := by
    rw [hD, h.eq]
    simp only [sentTexts_append]
    rw [hD03, sentTexts_none hG1, sentTexts_other (w := .trailing) h.ahead (.inl (by decide)), hI _ (.inr rfl),
      sentTexts_self h.behind, h.behindTexts, sentTexts_none hS2, sentTexts_none h2]
    simp
  refine ⟨?_, ?_, ?_⟩
  · rw [annotateArg_ann, annAt_leading, hlead]
  · rw [annotateArg_ann, annAt_trailing, htrail]
  · rw [← hlead, ← htrail]
    refine arg_comments (call := call) (Y0 := D0 ++ G1 ++ G2) (Y1 := S1 ++ S2 ++ E' ++ D2) ?_ ?_
    · rw [hD, h.eq]; simp
    · intro d hd hp
      simp only [List.mem_append] at hd
      rcases hd with ((hd | hd) | hd) | (((hd | hd) | hd) | hd)
      · exact .inl (h0 d hd hp)
      · exact absurd hp (hG1 d hd)
      · exact .inl (h.ahead d hd)
      · exact .inr (h.behind d hd)
      · exact absurd hp (hS2 d hd)
      · exact .inr (hE2 d hd hp)
      · exact absurd hp (h2 d hd)

theorem items_seated {call : Bool} {z : View} {q : Ref} {r : Token} {D D2 : List Deco} (hz : listKind z.kind)
    (hr : ender r.kind) : (xs : Items) → (i : Nat) → (prec : Option (Nat × View)) → (t : Token) → (D0 : List Deco) →
    ArgBefore call z i prec → xs.Fit call → (xs.view call r).At z i → commentsEnd (t :: (xs.tokens ++ [r])) →
    (∀ j y, prec = some (j, y) → y.isHole = true → call = true) →
    D = D0 ++ (xs.view call r).decos z q i prec true (some t) ++ D2 →
    (∀ d ∈ D0, (q ++ [i]) <+: (placeComment d).target → placeComment d = ⟨.leading, q ++ [i]⟩) →
    (∀ d ∈ D0, ∀ j, i < j → ¬ (q ++ [j]) <+: (placeComment d).target) →
    (∀ d ∈ D2, ∀ j, ¬ (q ++ [j]) <+: (placeComment d).target) →
    Seated (aheadFirst (sentTexts .leading (q ++ [i]) D0) (xs.seats (gone prec) t.trailing r).2)
      (xs.annotate (D.map Deco.placed) q i).args
  | .nil, _, _, _, _, _, hf, _, _, _, _, _, _, _ => hf.elim
  | .last x, i, prec, t, D0, hb, hf, ha, hc, hp, hD, h0, h1, h2 => by
    obtain ⟨G1, G2, S1, S2, h⟩ := pieces_last (q := q) hz hb hf hr hc hp
    obtain ⟨k1, k2, k3⟩ := pieces_seated h (fun j y hj => (hb.pos j y hj).1) nofun hD h0 (fun d hd => h2 d hd i)
    have e : sentTexts .trailing (q ++ [i]) [] = [] := rfl
    rw [e, List.append_nil] at k2 k3
    exact ⟨⟨annotate_argTokens _ _ _, k1, k2, k3⟩, trivial⟩
  | .cons x s xs, i, prec, t, D0, hb, hf, ha, hc, hp, hD, h0, h1, h2 => by
    obtain ⟨G1, G2, S1, S2, h⟩ := pieces_cons (q := q) hz hb hf hc hp
    have hon := items_onward (q := q) hz hr xs (i + 2) _ s (ArgBefore.next ha) hf.2.2 ha.sub.2.tok
      (commentsEnd_rest hc) (hole_call hf.1)
    obtain ⟨k1, k2, k3⟩ := pieces_seated h (fun j y hj => (hb.pos j y hj).1) hon hD h0 (fun d hd => h2 d hd i)
    have hbe := items_behind (q := q) hz hr (ArgBefore.next ha) hf.2.2 ha.sub.2.tok (commentsEnd_rest hc)
      (fun hy => hole_call (i := i) hf.1 _ _ rfl hy)
    rw [argView_hole hf.1] at hbe
    rw [hbe] at k2 k3
    have hD0 : ∀ d ∈ D0 ++ G1 ++ G2 ++ (x.view call).decos (q ++ [i]) false ++ S1, ∀ j, i < j →
        ¬ (q ++ [j]) <+: (placeComment d).target := by
      intro d hd j hj
      simp only [List.mem_append] at hd
      rcases hd with (((hd | hd) | hd) | hd) | hd
      · exact h1 d hd j hj
      · cases hp : prec with
        | none => rw [h.first hp] at hd; cases hd
        | some jy =>
          have := (hb.pos jy.1 jy.2 hp).1
          exact child_not (h.back _ _ hp) (by omega) d hd
      · exact child_not h.ahead (by omega) d hd
      · exact inside_not (by omega) d hd
      · exact child_not h.behind (by omega) d hd
    have hrec := items_seated (D := D) (D2 := D2) (q := q) hz hr xs (i + 2) (some (i, x.view call)) s
      (D0 ++ G1 ++ G2 ++ (x.view call).decos (q ++ [i]) false ++ S1 ++ S2) (ArgBefore.next ha) hf.2.2 ha.sub.2.tok
      (commentsEnd_rest hc) (hole_call hf.1) (by rw [hD, h.eq]; simp) (by
        intro d hd hpre
        rw [List.mem_append] at hd
        rcases hd with hd | hd
        · exact absurd hpre (hD0 d hd _ (by omega))
        · exact h.onward d hd) (by
        intro d hd j hj
        rw [List.mem_append] at hd
        rcases hd with hd | hd
        · exact hD0 d hd _ (by omega)
        · exact child_not h.onward (by omega) d hd) h2
    rw [gone_some hf.1, sentTexts_append, sentTexts_none (fun d hd => hD0 d hd _ (by omega)), List.nil_append,
      sentTexts_self h.onward, h.onwardTexts] at hrec
    exact ⟨⟨annotate_argTokens _ _ _, k1, k2, k3⟩, hrec⟩

/-! ## All lists of a file -/

variable {X : View} {D : List Deco}

/-- After a comma comes an argument. -/
def Items.EndsWell : Items → Prop
  | .nil => True
  | .last _ => True
  | .cons _ _ xs => xs ≠ .nil ∧ xs.EndsWell

theorem Items.Fit.ends {call : Bool} : (xs : Items) → xs.Fit call → xs.EndsWell
  | .nil, h => h.elim
  | .last x, _ => trivial
  | .cons x s xs, h => ⟨h.2.2.ne, Items.Fit.ends xs h.2.2⟩

/-- What is shown of all lists. -/
def Alike : List ArgList → List ArgList → Prop :=
  Both fun k k' => k.items.args ≠ [] → Seated k.seats k'.items.args ∧ k.items.EndsWell

theorem Both.mono {R S : ArgList → ArgList → Prop} (hRS : ∀ k k', R k k' → S k k') {a a' : List ArgList} (h : Both R a a') :
    Both S a a' := by
  induction a generalizing a' with
  | nil =>
    cases a' with
    | nil => trivial
    | cons k' a' => cases h
  | cons k a ih =>
    cases a' with
    | nil => cases h
    | cons k' a' => exact ⟨⟨h.1.1, h.1.2.1, h.1.2.2.1, hRS _ _ h.1.2.2.2⟩, ih h.2⟩

theorem Alike.append {a a' b b' : List ArgList} (h : Alike a a') (h' : Alike b b') : Alike (a ++ b) (a' ++ b') := by
  induction a generalizing a' with
  | nil =>
    cases a' with
    | nil => exact h'
    | cons k' a' => cases h
  | cons k a ih =>
    cases a' with
    | nil => cases h
    | cons k' a' => exact ⟨h.1, ih h.2⟩

/-- Comments from outside of a list go to no argument of it. -/
theorem outside_list (hD : ∀ d ∈ D, ∃ s, d.Sound X s) {q : Ref} {z : View} (hz : X.nodeAt q = some z)
    (hk : listKind z.kind) {d : Deco} (hd : d ∈ D) (ho : ¬ q <+: d.ref) (j : Nat) :
    ¬ (q ++ [j]) <+: (placeComment d).target := by
  rintro ⟨rest, h⟩
  obtain ⟨s, hs⟩ := hD d hd
  rw [hs.fate.target] at h
  rw [List.append_assoc] at h
  rcases List.append_eq_append_iff.1 h with ⟨a, h1, h2⟩ | ⟨a, h1, h2⟩
  · exact ho ⟨a, h1.symm⟩
  · by_cases ha : a = []
    · subst ha
      rw [List.append_nil] at h1
      exact ho (h1 ▸ List.prefix_refl _)
    · obtain ⟨y, w, hy, hyk, -, -⟩ := hs.fate.inner a _ h2 ha (by simp)
      have : X.nodeAt q = some y := by rw [h1, nodeAt_append, hs.at_]; exact hy
      rw [hz] at this
      cases this
      rcases hk with hk | hk | hk | hk <;> rw [hk] at hyk <;> rcases hyk with hyk | hyk | hyk <;> cases hyk

theorem list_seated (hD : ∀ d ∈ D, ∃ s, d.Sound X s) {call : Bool} {q : Ref} {k : Kind} {l r : Token} {xs : Items}
    (hn : Node X D q (.node k (.tok l (xs.view call r)))) (hk : listKind k) (hr : ender r.kind) (hf : xs.Fit call)
    (hc : commentsEnd (l :: (xs.tokens ++ [r]))) :
    Seated (xs.seats none l.trailing r).2 (xs.annotate (D.map Deco.placed) q 1).args := by
  obtain ⟨D1, D2, hs⟩ := hn.split
  have h1 : ∀ d ∈ D1, ∀ j, ¬ (q ++ [j]) <+: (placeComment d).target := fun d hd j =>
    outside_list hD hn.at_ hk (by rw [hs.eq]; simp [hd]) (hs.before d hd).1 j
  have h2 : ∀ d ∈ D2, ∀ j, ¬ (q ++ [j]) <+: (placeComment d).target := fun d hd j =>
    outside_list hD hn.at_ hk (by rw [hs.eq]; simp [hd]) (hs.after d hd).1 j
  have := items_seated (D := D) (D2 := D2) (q := q) (z := .node k (.tok l (xs.view call r))) hk hr xs 1 none l D1
    ⟨by
      show Parts.prevSub 1 0 (.tok l _) = none
      rw [Parts.prevSub, if_pos (by omega), prevSub_below _ _ _ (by omega)], nofun⟩ hf Parts.At.self.tok hc nofun
    (by rw [hs.eq, View.decos, Parts.decos]; simp)
    (fun d hd hp => absurd hp (h1 d hd 1)) (fun d hd j _ => h1 d hd j) h2
  rw [sentTexts_none (fun d hd => h1 d hd 1)] at this
  have e : ∀ ss : List Seat, aheadFirst [] ss = ss := by
    intro ss; cases ss <;> rfl
  rw [e] at this
  exact this

theorem selector_lists {n : Expr} (h : n.selector = true) (P : List Placed) (r : Ref) :
    n.lists = [] ∧ (n.annotate P r).lists = [] := by
  cases n <;> first | exact ⟨rfl, rfl⟩ | cases h

theorem argName_lists {n : Expr} (h : n.argName = true) (P : List Placed) (r : Ref) :
    n.lists = [] ∧ (n.annotate P r).lists = [] := by
  cases n <;> first | exact ⟨rfl, rfl⟩ | cases h

theorem parName_lists {n : Expr} (h : n.parName = true) (P : List Placed) (r : Ref) :
    n.lists = [] ∧ (n.annotate P r).lists = [] := by
  cases n <;> first | exact ⟨rfl, rfl⟩ | cases h

theorem closeKind_ender (k : CallKind) : ender (closeKind k) := by
  cases k
  · exact .inr (.inl rfl)
  · exact .inr (.inr (.inl rfl))
  · exact .inr (.inr (.inr rfl))

theorem args_listKind (k : CallKind) : listKind k.args := by
  cases k
  · exact .inl rfl
  · exact .inr (.inl rfl)
  · exact .inr (.inr (.inl rfl))

theorem args_ne {xs : Items} (h : xs.args ≠ []) : xs ≠ .nil := by
  rintro rfl; exact h rfl

mutual
theorem alike (hD : ∀ d ∈ D, ∃ s, d.Sound X s) : (e : Expr) → (g : Bool) → (r : Ref) → e.gram g = true →
    commentsEnd e.tokens → Node X D r e.view → Alike e.lists (e.annotate (D.map Deco.placed) r).lists
  | .atom .., _, _, _, _, _ => trivial
  | .str .., _, _, _, _, _ => trivial
  | .paren a l e t, g, r, hg, hc, hn => by
    simp only [Expr.gram, Bool.and_eq_true] at hg
    rw [Expr.tokens] at hc
    exact alike hD e _ _ hg.1.2 (commentsEnd_append (commentsEnd_tail hc)).1 (hn.child rfl)
  | .braced a l es t, g, r, hg, hc, hn => by
    simp only [Expr.gram, Bool.and_eq_true] at hg
    rw [Expr.tokens] at hc
    exact alikes hD es t _ _ 1 hg.1.2 (commentsEnd_append (commentsEnd_tail hc)).1 (fun i y hi => hn.child hi)
      Parts.At.self.tok
  | .unary a p e, g, r, hg, hc, hn => by
    simp only [Expr.gram] at hg
    rw [Expr.tokens] at hc
    split at hg
    · simp only [Bool.and_eq_true] at hg
      exact alike hD e _ _ hg.1 (commentsEnd_tail hc) (hn.child rfl)
    · cases hg
  | .binary a x p y, g, r, hg, hc, hn => by
    simp only [Expr.gram] at hg
    rw [Expr.tokens] at hc
    split at hg
    · simp only [Bool.and_eq_true] at hg
      exact (alike hD x _ _ hg.1.1.1.1 (commentsEnd_append hc).1 (hn.child rfl)).append
        (alike hD y _ _ hg.1.1.1.2 (commentsEnd_tail (commentsEnd_append hc).2) (hn.child rfl))
    · cases hg
  | .sel a .extract x p y, g, r, hg, hc, hn => by
    simp only [Expr.gram, Bool.and_eq_true] at hg
    rw [Expr.tokens] at hc
    rw [Expr.annotate, Expr.lists, Expr.lists, (selector_lists hg.2 [] []).1,
      (selector_lists hg.2 (D.map Deco.placed) _).2]
    exact (alike hD x _ _ hg.1.1.1 (commentsEnd_append hc).1 (hn.child rfl)).append (b := []) (b' := []) trivial
  | .sel a .namespace x p y, g, r, hg, hc, hn => by
    simp only [Expr.gram, Bool.and_eq_true] at hg
    rw [Expr.annotate, Expr.lists, Expr.lists, (selector_lists hg.2 [] []).1,
      (selector_lists hg.2 (D.map Deco.placed) _).2, (selector_lists hg.1.1 [] []).1,
      (selector_lists hg.1.1 (D.map Deco.placed) _).2]
    trivial
  | .call a c f aa l items t, g, r, hg, hc, hn => by
    simp only [Expr.gram, Bool.and_eq_true, beq_iff_eq] at hg
    rw [Expr.tokens] at hc
    have hl : Node X D (r ++ [1]) (.node c.args (.tok l (items.view true t))) := hn.child rfl
    refine (alike hD f _ _ hg.1.1.1.1 (commentsEnd_append hc).1 (hn.child rfl)).append ⟨⟨rfl, rfl, rfl, ?_⟩, ?_⟩
    · intro hne
      have hf := gramArgs_fit items _ hg.1.2 (args_ne hne)
      exact ⟨list_seated hD hl (args_listKind c) (by rw [hg.2]; exact closeKind_ender c) hf (commentsEnd_append hc).2,
        hf.ends⟩
    · exact alike_items hD true items t _ _ 1 (.inl ⟨_, hg.1.2⟩)
        (commentsEnd_append (commentsEnd_tail (commentsEnd_append hc).2)).1 (fun i y hi => hl.child hi) Parts.At.self.tok
  | .func a kw pa l items t b, g, r, hg, hc, hn => by
    simp only [Expr.gram, Bool.and_eq_true, beq_iff_eq] at hg
    rw [Expr.tokens] at hc
    have hl : Node X D (r ++ [1]) (.node .rParameters (.tok l (items.view false t))) := hn.child rfl
    have hc1 : commentsEnd ((l :: (items.tokens ++ [t])) ++ b.tokens) := by
      have := commentsEnd_tail hc
      simpa using this
    refine ⟨⟨rfl, rfl, rfl, ?_⟩, ?_⟩
    · intro hne
      have hf := gramPars_fit items hg.1.1.1.2 (args_ne hne)
      exact ⟨list_seated hD hl (.inr (.inr (.inr rfl))) (by rw [hg.1.1.2]; exact .inr (.inl rfl)) hf
        (commentsEnd_append hc1).1, hf.ends⟩
    · exact (alike_items hD false items t _ _ 1 (.inr (.inl hg.1.1.1.2))
        (commentsEnd_append (commentsEnd_tail (commentsEnd_append hc1).1)).1 (fun i y hi => hl.child hi)
        Parts.At.self.tok).append (alike hD b _ _ hg.1.2 (commentsEnd_append hc1).2 (hn.child rfl))
  | .ite a kw l c t b, g, r, hg, hc, hn => by
    simp only [Expr.gram, Bool.and_eq_true, beq_iff_eq] at hg
    rw [Expr.tokens] at hc
    have hc := commentsEnd_tail (commentsEnd_tail hc)
    exact (alike hD c _ _ hg.1.1.1.2 (commentsEnd_append hc).1 (hn.child rfl)).append
      (alike hD b _ _ hg.1.2 (commentsEnd_tail (commentsEnd_append hc).2) (hn.child rfl))
  | .itee a kw l c t b ea el e, g, r, hg, hc, hn => by
    simp only [Expr.gram, Bool.and_eq_true, beq_iff_eq] at hg
    rw [Expr.tokens] at hc
    have hc := commentsEnd_tail (commentsEnd_tail hc)
    have hc2 := commentsEnd_tail (commentsEnd_append hc).2
    have he : Node X D (r ++ [5] ++ [1]) e.view :=
      (show Node X D (r ++ [5]) (.node .rElseClause (.tok el (.sub e.view .nil))) from hn.child rfl).child rfl
    rw [List.append_assoc] at he
    exact (alike hD c _ _ hg.1.1.1.1.1.1.1.2 (commentsEnd_append hc).1 (hn.child rfl)).append
      ((alike hD b _ _ hg.1.1.1.1.1.2 (commentsEnd_append hc2).1 (hn.child rfl)).append
        (alike hD e _ _ hg.1.2 (commentsEnd_tail (commentsEnd_append hc2).2) he))
  | .for_ a kw l v i s t b, g, r, hg, hc, hn => by
    simp only [Expr.gram, Bool.and_eq_true, beq_iff_eq] at hg
    rw [Expr.tokens] at hc
    have hc := commentsEnd_tail (commentsEnd_append (commentsEnd_tail (commentsEnd_tail hc))).2
    rw [Expr.annotate, Expr.lists, Expr.lists, (parName_lists hg.1.1.1.1.1.2 [] []).1,
      (parName_lists hg.1.1.1.1.1.2 (D.map Deco.placed) _).2]
    exact (alike hD s _ _ hg.1.1.1.2 (commentsEnd_append hc).1 (hn.child rfl)).append
      (alike hD b _ _ hg.1.2 (commentsEnd_tail (commentsEnd_append hc).2) (hn.child rfl))
  | .while_ a kw l c t b, g, r, hg, hc, hn => by
    simp only [Expr.gram, Bool.and_eq_true, beq_iff_eq] at hg
    rw [Expr.tokens] at hc
    have hc := commentsEnd_tail (commentsEnd_tail hc)
    exact (alike hD c _ _ hg.1.1.1.2 (commentsEnd_append hc).1 (hn.child rfl)).append
      (alike hD b _ _ hg.1.2 (commentsEnd_tail (commentsEnd_append hc).2) (hn.child rfl))
  | .repeat_ a kw b, g, r, hg, hc, hn => by
    simp only [Expr.gram, Bool.and_eq_true, beq_iff_eq] at hg
    rw [Expr.tokens] at hc
    exact alike hD b _ _ hg.1.2 (commentsEnd_tail hc) (hn.child rfl)
theorem alikes (hD : ∀ d ∈ D, ∃ s, d.Sound X s) : (es : Exprs) → (t : Token) → (r : Ref) → (z : View) → (i : Nat) →
    es.gram = true → commentsEnd es.tokens → (∀ i y, z.parts.slot i = some y → Node X D (r ++ [i]) y) →
    (es.view t).At z i → Alike es.lists (es.annotate (D.map Deco.placed) r i).lists
  | .nil, _, _, _, _, _, _, _, _ => trivial
  | .cons e es, t, r, z, i, hg, hc, hn, ha => by
    rw [Exprs.view] at ha
    rw [Exprs.tokens] at hc
    simp only [Exprs.gram, Bool.and_eq_true] at hg
    exact (alike hD e _ _ hg.1 (commentsEnd_append hc).1 (hn i _ ha.sub.1)).append
      (alikes hD es t r z (i + 1) hg.2 (commentsEnd_append hc).2 hn ha.sub.2)
theorem alike_items (hD : ∀ d ∈ D, ∃ s, d.Sound X s) (call : Bool) : (xs : Items) → (t : Token) → (r : Ref) →
    (z : View) → (i : Nat) → ((∃ b, xs.gramArgs b = true) ∨ xs.gramPars = true ∨ xs.gramPars1 = true) →
    commentsEnd xs.tokens → (∀ i y, z.parts.slot i = some y → Node X D (r ++ [i]) y) → (xs.view call t).At z i →
    Alike xs.lists (xs.annotate (D.map Deco.placed) r i).lists
  | .nil, _, _, _, _, _, _, _, _ => trivial
  | .last x, t, r, z, i, hg, hc, hn, ha => by
    rw [Items.view] at ha
    refine alike_arg hD call x _ ?_ hc (hn i _ ha.sub.1)
    rcases hg with ⟨b, hg⟩ | hg | hg
    · simp only [Items.gramArgs, Bool.and_eq_true] at hg
      exact .inl hg.1
    · exact .inr hg
    · exact .inr hg
  | .cons x s xs, t, r, z, i, hg, hc, hn, ha => by
    rw [Items.view] at ha
    rw [Items.tokens] at hc
    have hx : x.gramArg = true ∨ x.gramPar = true := by
      rcases hg with ⟨b, hg⟩ | hg | hg
      · simp only [Items.gramArgs, Bool.and_eq_true] at hg
        exact .inl hg.1.1
      · simp only [Items.gramPars, Bool.and_eq_true] at hg
        exact .inr hg.1.1
      · simp only [Items.gramPars1, Bool.and_eq_true] at hg
        exact .inr hg.1.1
    have hxs : (∃ b, xs.gramArgs b = true) ∨ xs.gramPars = true ∨ xs.gramPars1 = true := by
      rcases hg with ⟨b, hg⟩ | hg | hg
      · simp only [Items.gramArgs, Bool.and_eq_true] at hg
        exact .inl ⟨_, hg.2⟩
      · simp only [Items.gramPars, Bool.and_eq_true] at hg
        exact .inr (.inr hg.2)
      · simp only [Items.gramPars1, Bool.and_eq_true] at hg
        exact .inr (.inr hg.2)
    exact (alike_arg hD call x _ hx (commentsEnd_append hc).1 (hn i _ ha.sub.1)).append
      (alike_items hD call xs t r z (i + 2) hxs (commentsEnd_tail (commentsEnd_append hc).2) hn ha.sub.2.tok)
theorem alike_arg (hD : ∀ d ∈ D, ∃ s, d.Sound X s) (call : Bool) : (x : Arg) → (r : Ref) →
    (x.gramArg = true ∨ x.gramPar = true) → commentsEnd x.tokens → Node X D r (x.view call) →
    Alike x.lists (x.annotate (D.map Deco.placed) r).lists
  | .hole a, r, hg, hc, hn => trivial
  | .val a e, r, hg, hc, hn => by
    rcases hg with hg | hg
    · exact alike hD e _ _ hg hc (hn.child rfl)
    · rw [Arg.annotate, Arg.lists, Arg.lists, (parName_lists hg [] []).1,
        (parName_lists hg (D.map Deco.placed) _).2]
      trivial
  | .name a na n t, r, hg, hc, hn => by
    rcases hg with hg | hg
    · simp only [Arg.gramArg, Bool.and_eq_true] at hg
      rw [Arg.annotate, Arg.lists, Arg.lists, (argName_lists hg.1 [] []).1,
        (argName_lists hg.1 (D.map Deco.placed) _).2]
      trivial
    · cases hg
  | .named a na n t e, r, hg, hc, hn => by
    rcases hg with hg | hg
    · simp only [Arg.gramArg, Bool.and_eq_true] at hg
      rw [Arg.tokens] at hc
      rw [Arg.annotate, Arg.lists, Arg.lists, (argName_lists hg.1.1 [] []).1,
        (argName_lists hg.1.1 (D.map Deco.placed) _).2]
      exact alike hD e _ _ hg.2 (commentsEnd_tail (commentsEnd_append hc).2) (hn.child rfl)
    · cases hg
  | .pdef a n da t e, r, hg, hc, hn => by
    rcases hg with hg | hg
    · cases hg
    · simp only [Arg.gramPar, Bool.and_eq_true] at hg
      rw [Arg.tokens] at hc
      rw [Arg.annotate, Arg.lists, Arg.lists, (parName_lists hg.1.1 [] []).1,
        (parName_lists hg.1.1 (D.map Deco.placed) _).2]
      have he : Node X D (r ++ [1] ++ [1]) e.view :=
        (show Node X D (r ++ [1]) (.node .rParameterDefault (.tok t (.sub e.view .nil))) from hn.child rfl).child rfl
      rw [List.append_assoc] at he
      exact alike hD e _ _ hg.2 (commentsEnd_tail (commentsEnd_append hc).2) he
end

/-- The argument lists of a file. -/
theorem alike_root (x : Root) (hg : x.es.gram = true) (hc : commentsEnd x.es.tokens) :
    Alike x.es.lists x.attach.es.lists := by
  have hD : ∀ d ∈ x.view.decos [] true, ∃ s, d.Sound x.view s := view_sound fun _ => rfl
  refine alikes hD x.es x.eof [] x.view 0 hg hc ?_ Parts.At.self
  intro i y hi
  exact ⟨slot_nodeAt hi, Split.root hi⟩

end Verif.Format
