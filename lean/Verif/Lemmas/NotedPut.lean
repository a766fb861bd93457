import Verif.Lemmas.Statements
import Verif.Lemmas.NotedCalm

/-!
# Comments before statements stay where they are

A tree whose comments are in front of statements, with these comments attached to the statements, is what
attaching comments makes of it.
-/

namespace Verif.Format
open Verif.Syntax

/-! ## Trees with comments -/

mutual
/-- The tree of a program with the comments of its nodes. -/
inductive AView where
  | node (a : Ann) (k : Kind) (ps : AParts)
inductive AParts where
  | nil
  | tok (t : Token) (ps : AParts)
  | sub (x : AView) (ps : AParts)
end

def AParts.one (t : Token) : AParts := .tok t .nil

mutual
def Expr.aview : Expr → AView
  | .atom a k t => .node a k (.one t)
  | .str a o c l => .node a .rStringValue (.tok o (match c with | some c => .tok c (.one l) | none => .one l))
  | .paren a l e r => .node a .rParenthesizedExpression (.tok l (.sub e.aview (.one r)))
  | .braced a l es r => .node a .rBracedExpressions (.tok l (es.aview r))
  | .unary a o e => .node a .rUnaryExpression (.tok o (.sub e.aview .nil))
  | .binary a x o y => .node a .rBinaryExpression (.sub x.aview (.tok o (.sub y.aview .nil)))
  | .sel a k x o y => .node a k.node (.sub x.aview (.tok o (.sub y.aview .nil)))
  | .call a k f aa l items r =>
    .node a k.node (.sub f.aview (.sub (.node aa k.args (.tok l (items.aview true r))) .nil))
  | .func a kw pa l items r b =>
    .node a .rFunctionDefinition
      (.tok kw (.sub (.node pa .rParameters (.tok l (items.aview false r))) (.sub b.aview .nil)))
  | .ite a kw l c r t =>
    .node a .rIfStatement (.tok kw (.tok l (.sub c.aview (.tok r (.sub t.aview .nil)))))
  | .itee a kw l c r t ea el e =>
    .node a .rIfStatement (.tok kw (.tok l (.sub c.aview (.tok r (.sub t.aview
      (.sub (.node ea .rElseClause (.tok el (.sub e.aview .nil))) .nil))))))
  | .for_ a kw l v i s r b =>
    .node a .rForStatement (.tok kw (.tok l (.sub v.aview (.tok i (.sub s.aview (.tok r (.sub b.aview .nil)))))))
  | .while_ a kw l c r b =>
    .node a .rWhileStatement (.tok kw (.tok l (.sub c.aview (.tok r (.sub b.aview .nil)))))
  | .repeat_ a kw b => .node a .rRepeatStatement (.tok kw (.sub b.aview .nil))
def Exprs.aview (r : Token) : Exprs → AParts
  | .nil => .one r
  | .cons e es => .sub e.aview (es.aview r)
def Items.aview (call : Bool) (r : Token) : Items → AParts
  | .nil => .one r
  | .last x => .sub (x.aview call) (.one r)
  | .cons x s xs => .sub (x.aview call) (.tok s (xs.aview call r))
def Arg.aview (call : Bool) : Arg → AView
  | .hole a => .node a (if call then .rArgument else .rParameter) .nil
  | .val a e => .node a (if call then .rArgument else .rParameter) (.sub e.aview .nil)
  | .name a na n q =>
    .node a (if call then .rArgument else .rParameter)
      (.sub (.node na .rArgumentNameClause (.sub n.aview (.one q))) .nil)
  | .named a na n q e =>
    .node a (if call then .rArgument else .rParameter)
      (.sub (.node na .rArgumentNameClause (.sub n.aview (.one q))) (.sub e.aview .nil))
  | .pdef a n da q e =>
    .node a (if call then .rArgument else .rParameter)
      (.sub n.aview (.sub (.node da .rParameterDefault (.tok q (.sub e.aview .nil))) .nil))
end

mutual
/-- Without them. -/
def AView.erase : AView → View
  | .node _ k ps => .node k ps.erase
def AParts.erase : AParts → Parts
  | .nil => .nil
  | .tok t ps => .tok t ps.erase
  | .sub x ps => .sub x.erase ps.erase
end

mutual
theorem erase_view : (e : Expr) → e.aview.erase = e.view
  | .atom .. => rfl
  | .str a p c l => by cases c <;> rfl
  | .paren a l e r => by
    simp only [Expr.aview, Expr.view, AView.erase, AParts.erase, AParts.one, Parts.one, erase_view e]
  | .braced a l es r => by simp only [Expr.aview, Expr.view, AView.erase, AParts.erase, erase_views es]
  | .unary a p e => by simp only [Expr.aview, Expr.view, AView.erase, AParts.erase, erase_view e]
  | .binary a x p y => by simp only [Expr.aview, Expr.view, AView.erase, AParts.erase, erase_view x, erase_view y]
  | .sel a k x p y => by simp only [Expr.aview, Expr.view, AView.erase, AParts.erase, erase_view x, erase_view y]
  | .call a k f aa l items r => by
    simp only [Expr.aview, Expr.view, AView.erase, AParts.erase, erase_view f, erase_viewItems items]
  | .func a kw pa l items r b => by
    simp only [Expr.aview, Expr.view, AView.erase, AParts.erase, erase_view b, erase_viewItems items]
  | .ite a kw l c r t => by simp only [Expr.aview, Expr.view, AView.erase, AParts.erase, erase_view c, erase_view t]
  | .itee a kw l c r t ea el e => by
    simp only [Expr.aview, Expr.view, AView.erase, AParts.erase, erase_view c, erase_view t, erase_view e]
  | .for_ a kw l v i s r b => by
    simp only [Expr.aview, Expr.view, AView.erase, AParts.erase, erase_view v, erase_view s, erase_view b]
  | .while_ a kw l c r b => by
    simp only [Expr.aview, Expr.view, AView.erase, AParts.erase, erase_view c, erase_view b]
  | .repeat_ a kw b => by simp only [Expr.aview, Expr.view, AView.erase, AParts.erase, erase_view b]
theorem erase_views : (es : Exprs) → ∀ r, (es.aview r).erase = es.view r
  | .nil, _ => rfl
  | .cons e es, r => by simp only [Exprs.aview, Exprs.view, AParts.erase, erase_view e, erase_views es]
theorem erase_viewItems : (xs : Items) → ∀ call r, (xs.aview call r).erase = xs.view call r
  | .nil, _, _ => rfl
  | .last x, call, r => by
    simp only [Items.aview, Items.view, AParts.erase, AParts.one, Parts.one, erase_viewArg x]
  | .cons x s xs, call, r => by
    simp only [Items.aview, Items.view, AParts.erase, erase_viewArg x, erase_viewItems xs]
theorem erase_viewArg : (x : Arg) → ∀ call, (x.aview call).erase = x.view call
  | .hole _, _ => rfl
  | .val a e, call => by simp only [Arg.aview, Arg.view, AView.erase, AParts.erase, erase_view e]
  | .name a na n p, call => by
    simp only [Arg.aview, Arg.view, AView.erase, AParts.erase, AParts.one, Parts.one, erase_view n]
  | .named a na n p e, call => by
    simp only [Arg.aview, Arg.view, AView.erase, AParts.erase, AParts.one, Parts.one, erase_view n, erase_view e]
  | .pdef a n da p e, call => by
    simp only [Arg.aview, Arg.view, AView.erase, AParts.erase, erase_view n, erase_view e]
end

mutual
/-- The comments attached by `P` are those of the nodes. -/
def AView.Agrees (P : List Placed) (r : Ref) : AView → Prop
  | .node a _ ps => annAt P r = a ∧ ps.Agrees P r 0
def AParts.Agrees (P : List Placed) (r : Ref) (i : Nat) : AParts → Prop
  | .nil => True
  | .tok _ ps => ps.Agrees P r (i + 1)
  | .sub x ps => x.Agrees P (r ++ [i]) ∧ ps.Agrees P r (i + 1)
end

mutual
theorem agrees_same {P : List Placed} : (e : Expr) → ∀ r, e.aview.Agrees P r → e.annotate P r = e
  | .atom .., r, h => by simp only [Expr.annotate, h.1]
  | .str .., r, h => by simp only [Expr.annotate, h.1]
  | .paren a l e t, r, h => by
    simp only [Expr.aview, AView.Agrees, AParts.Agrees, AParts.one] at h
    simp only [Expr.annotate, h.1, agrees_same e _ h.2.1]
  | .braced a l es t, r, h => by
    simp only [Expr.aview, AView.Agrees, AParts.Agrees] at h
    simp only [Expr.annotate, h.1, agrees_sames es _ _ _ h.2]
  | .unary a p e, r, h => by
    simp only [Expr.aview, AView.Agrees, AParts.Agrees] at h
    simp only [Expr.annotate, h.1, agrees_same e _ h.2.1]
  | .binary a x p y, r, h => by
    simp only [Expr.aview, AView.Agrees, AParts.Agrees] at h
    simp only [Expr.annotate, h.1, agrees_same x _ h.2.1, agrees_same y _ h.2.2.1]
  | .sel a k x p y, r, h => by
    simp only [Expr.aview, AView.Agrees, AParts.Agrees] at h
    simp only [Expr.annotate, h.1, agrees_same x _ h.2.1, agrees_same y _ h.2.2.1]
  | .call a k f aa l items t, r, h => by
    simp only [Expr.aview, AView.Agrees, AParts.Agrees] at h
    obtain ⟨h1, h2, ⟨h3, h4⟩, -⟩ := h
    simp only [Expr.annotate, h1, h3, agrees_same f _ h2, agrees_sameItems items _ _ _ _ h4, Nat.zero_add]
  | .func a kw pa l items t b, r, h => by
    simp only [Expr.aview, AView.Agrees, AParts.Agrees] at h
    obtain ⟨h1, ⟨h3, h4⟩, h2, -⟩ := h
    simp only [Expr.annotate, h1, h3, agrees_same b _ h2, agrees_sameItems items _ _ _ _ h4, Nat.zero_add]
  | .ite a kw l c t b, r, h => by
    simp only [Expr.aview, AView.Agrees, AParts.Agrees] at h
    obtain ⟨h1, h2, h3, -⟩ := h
    simp only [Expr.annotate, h1, agrees_same c _ h2, agrees_same b _ h3]
  | .itee a kw l c t b ea el e, r, h => by
    simp only [Expr.aview, AView.Agrees, AParts.Agrees] at h
    obtain ⟨h1, h2, h3, ⟨h4, h5, -⟩, -⟩ := h
    have h6 := agrees_same e (r ++ [5, 1]) (by simpa using h5)
    simp only [Expr.annotate, h1, agrees_same c _ h2, agrees_same b _ h3, h4, h6]
  | .for_ a kw l v i s t b, r, h => by
    simp only [Expr.aview, AView.Agrees, AParts.Agrees] at h
    obtain ⟨h1, h2, h3, h4, -⟩ := h
    simp only [Expr.annotate, h1, agrees_same v _ h2, agrees_same s _ h3, agrees_same b _ h4]
  | .while_ a kw l c t b, r, h => by
    simp only [Expr.aview, AView.Agrees, AParts.Agrees] at h
    obtain ⟨h1, h2, h3, -⟩ := h
    simp only [Expr.annotate, h1, agrees_same c _ h2, agrees_same b _ h3]
  | .repeat_ a kw b, r, h => by
    simp only [Expr.aview, AView.Agrees, AParts.Agrees] at h
    simp only [Expr.annotate, h.1, agrees_same b _ h.2.1]
theorem agrees_sames {P : List Placed} : (es : Exprs) → ∀ r i t, (es.aview t).Agrees P r i → es.annotate P r i = es
  | .nil, _, _, _, _ => rfl
  | .cons e es, r, i, t, h => by
    simp only [Exprs.aview, AParts.Agrees] at h
    simp only [Exprs.annotate, agrees_same e _ h.1, agrees_sames es _ _ _ h.2]
theorem agrees_sameItems {P : List Placed} : (xs : Items) → ∀ r i call t, (xs.aview call t).Agrees P r i →
    xs.annotate P r i = xs
  | .nil, _, _, _, _, _ => rfl
  | .last x, r, i, call, t, h => by
    simp only [Items.aview, AParts.Agrees] at h
    simp only [Items.annotate, agrees_sameArg x _ _ h.1]
  | .cons x s xs, r, i, call, t, h => by
    simp only [Items.aview, AParts.Agrees] at h
    simp only [Items.annotate, agrees_sameArg x _ _ h.1, agrees_sameItems xs _ _ _ _ h.2]
theorem agrees_sameArg {P : List Placed} : (x : Arg) → ∀ r call, (x.aview call).Agrees P r → x.annotate P r = x
  | .hole _, r, call, h => by simp only [Arg.annotate, h.1]
  | .val a e, r, call, h => by
    simp only [Arg.aview, AView.Agrees, AParts.Agrees] at h
    simp only [Arg.annotate, h.1, agrees_same e _ h.2.1]
  | .name a na n p, r, call, h => by
    simp only [Arg.aview, AView.Agrees, AParts.Agrees] at h
    obtain ⟨h1, ⟨h2, h3, -⟩, -⟩ := h
    have h6 := agrees_same n (r ++ [0, 0]) (by simpa using h3)
    simp only [Arg.annotate, h1, h2, h6]
  | .named a na n p e, r, call, h => by
    simp only [Arg.aview, AView.Agrees, AParts.Agrees] at h
    obtain ⟨h1, ⟨h2, h3, -⟩, h4, -⟩ := h
    have h6 := agrees_same n (r ++ [0, 0]) (by simpa using h3)
    simp only [Arg.annotate, h1, h2, h6, agrees_same e _ h4]
  | .pdef a n da p e, r, call, h => by
    simp only [Arg.aview, AView.Agrees, AParts.Agrees] at h
    obtain ⟨h1, h2, ⟨h3, h4, -⟩, -⟩ := h
    have h6 := agrees_same e (r ++ [1, 1]) (by simpa using h4)
    simp only [Arg.annotate, h1, h3, h6, agrees_same n _ h2]
end

/-! ## Where comments are -/

/-- A node with statements. -/
def isStmts (k : Kind) : Bool := k == .rRoot || k == .rBracedExpressions

/-- Comments before a statement. -/
def led (ps : List Piece) : Ann :=
  ⟨(scan 0 0 false ps).map (fun c => ⟨c.text, c.before, c.after, false⟩), [], []⟩

def AView.ann : AView → Ann
  | .node a _ _ => a

mutual
/-- Comments are in front of statements and attached to them. -/
def AView.Put : AView → Prop
  | .node _ k ps => ps.Put (isStmts k) true false
/-- `blk`: among statements, `first`: before the first of them, `inside`: after the first token. -/
def AParts.Put (blk first inside : Bool) : AParts → Prop
  | .nil => True
  | .tok t ps => t.trailing = [] ∧ (inside = true → hasComment t.leading = false) ∧ ps.Put blk first true
  | .sub x ps => x.Put ∧
      (if blk then inside = true ∧ x.erase.isHole = false ∧ ∃ t, x.erase.first = some t ∧ x.ann = led t.leading ∧
          (first = false → ∀ c ∈ scan 0 0 false t.leading, c.own = true)
        else x.ann = {} ∧ (inside = true → ∀ t, x.erase.first = some t → hasComment t.leading = false)) ∧
      ps.Put blk false (inside || x.erase.first.isSome)
end

theorem scan_free : ∀ (ps : List Piece) (m n : Nat) (own : Bool), hasComment ps = false → scan m n own ps = []
  | [], _, _, _, _ => rfl
  | p :: ps, m, n, own, h => by
    simp only [hasComment, List.any_cons, Bool.or_eq_false_iff] at h
    have ih := fun m n own => scan_free ps m n own h.2
    rw [scan]
    cases hk : p.kind with
    | comment => simp [hk] at h
    | _ => simp [ih]

mutual
theorem put_last : (x : AView) → x.Put → ∀ t, x.erase.last = some t → t.trailing = []
  | .node _ _ ps, h, t, ht => puts_last ps _ _ _ h t ht
theorem puts_last : (ps : AParts) → ∀ blk first inside, ps.Put blk first inside → ∀ t, ps.erase.last = some t → t.trailing = []
  | .nil, _, _, _, _, t, ht => by cases ht
  | .tok u ps, blk, first, inside, h, t, ht => by
    simp only [AParts.erase, Parts.last] at ht
    split at ht
    · rename_i v hv
      cases ht
      exact puts_last ps _ _ _ h.2.2 _ hv
    · cases ht
      exact h.1
  | .sub x ps, blk, first, inside, h, t, ht => by
    simp only [AParts.erase, Parts.last] at ht
    split at ht
    · rename_i v hv
      cases ht
      exact puts_last ps _ _ _ h.2.2 _ hv
    · exact put_last x h.1 t ht
end

/-! ## Attaching -/

theorem annAt_append {P Q : List Placed} {q : Ref} : annAt (P ++ Q) q =
    ⟨(annAt P q).leading ++ (annAt Q q).leading, (annAt P q).dangling ++ (annAt Q q).dangling,
      (annAt P q).trailing ++ (annAt Q q).trailing⟩ := by
  simp [annAt]

theorem annAt_out {P : List Placed} {q : Ref} (h : ∀ p ∈ P, p.to.target ≠ q) : annAt P q = {} := by
  have key : ∀ w, P.filter (fun p => p.to == ⟨w, q⟩) = [] := by
    intro w
    rw [List.filter_eq_nil_iff]
    intro p hp he
    simp only [beq_iff_eq] at he
    exact h p hp (by rw [he])
  simp [annAt, key]

theorem annAt_left {P Q : List Placed} {q : Ref} (h : annAt Q q = {}) : annAt (P ++ Q) q = annAt P q := by
  rw [annAt_append, h]
  simp

theorem annAt_right {P Q : List Placed} {q : Ref} (h : annAt P q = {}) : annAt (P ++ Q) q = annAt Q q := by
  rw [annAt_append, h]
  simp

/-- The comments before a statement, attached. -/
theorem stmt_gap {xv : View} {r : Ref} {i : Nat} {prec : Option (Nat × View)} {y : View} {prev : Option Token} {t : Token}
    (hk : isStmts xv.kind = true) (hp : ∀ j z, prec = some (j, z) → z.isHole = false) (hpr : trailingOf prev = [])
    (ho : prec ≠ none → ∀ c ∈ scan 0 0 false t.leading, c.own = true) :
    (gapDecos xv r i prec (some (i, y)) prev t).map Deco.placed =
      (scan 0 0 false t.leading).map (fun c => ⟨⟨.leading, r ++ [i]⟩, ⟨c.text, c.before, c.after, false⟩⟩) := by
  unfold gapDecos
  simp only [hpr, List.nil_append, List.length_nil, List.map_map]
  apply List.map_congr_left
  intro c hc
  have hs : stmtsKind xv.kind := by simpa [isStmts, stmtsKind] using hk
  simp only [Function.comp]
  have hp1 : placeComment ⟨c.text, c.before, c.after, c.early, if c.own = true then .ownLine else
      if (t.leading.any fun p => p.kind == .newline) = true then .endOfLine else .sameLine, xv, r, i, prec,
      some (i, y), t.kind⟩ = ⟨.leading, r ++ [i]⟩ := by
    rw [placeComment_stmts hs hp]
    unfold placeDefault
    cases prec with
    | some z => simp [ho (by simp) c hc]
    | none =>
      cases c.own
      · split <;> simp_all <;> split <;> rfl
      · rfl
  unfold Deco.placed
  simp only [hp1, Deco.precedes, Ref.le_refl, Bool.true_or, Bool.not_true]

theorem stmt_ann {r : Ref} {i : Nat} {S : List Scanned} :
    annAt (S.map (fun c => (⟨⟨.leading, r ++ [i]⟩, ⟨c.text, c.before, c.after, false⟩⟩ : Placed))) (r ++ [i]) =
      ⟨S.map (fun c => ⟨c.text, c.before, c.after, false⟩), [], []⟩ := by
  induction S with
  | nil => rfl
  | cons c S ih =>
    simp only [annAt, List.map_cons, Ann.mk.injEq] at ih ⊢
    refine ⟨?_, ?_, ?_⟩
    · rw [List.filter_cons_of_pos (by simp), List.map_cons, ih.1]
    · rw [List.filter_cons_of_neg (by simp)]; exact ih.2.1
    · rw [List.filter_cons_of_neg (by simp)]; exact ih.2.2

mutual
theorem put_view : (x : AView) → x.Put → ∀ r,
    (∀ p ∈ (x.erase.decos r false).map Deco.placed, ∃ j q, p.to.target = r ++ j :: q) ∧
    ∀ P, annAt P r = x.ann →
      (∀ j q, annAt P (r ++ j :: q) = annAt ((x.erase.decos r false).map Deco.placed) (r ++ j :: q)) → x.Agrees P r
  | .node a k ps, h, r => by
    have key := put_parts ps (.node k ps.erase) r 0 none false none (isStmts k) true (fun hb => hb)
      (fun hb => by cases hb; rfl) h (nofun) rfl
    refine ⟨fun p hp => ?_, fun P h1 h2 => ⟨h1, key.2 P (fun j q _ => h2 j q)⟩⟩
    obtain ⟨j, q, -, hj⟩ := key.1 p hp
    exact ⟨j, q, hj⟩
theorem put_parts : (ps : AParts) → ∀ (xv : View) (r : Ref) (i : Nat) (prec : Option (Nat × View)) (inside : Bool)
    (prev : Option Token) (blk first : Bool), (blk = true → isStmts xv.kind = true) → (first = true → prec = none) →
    ps.Put blk first inside → (∀ j z, prec = some (j, z) → blk = true → z.isHole = false) → trailingOf prev = [] →
    (∀ p ∈ (ps.erase.decos xv r i prec inside prev).map Deco.placed, ∃ j q, i ≤ j ∧ p.to.target = r ++ j :: q) ∧
    ∀ P, (∀ j q, i ≤ j → annAt P (r ++ j :: q) =
      annAt ((ps.erase.decos xv r i prec inside prev).map Deco.placed) (r ++ j :: q)) → ps.Agrees P r i
  | .nil, _, _, _, _, _, _, _, _, _, _, _, _, _ => ⟨by simp [AParts.erase, Parts.decos], fun _ _ => trivial⟩
  | .tok t ps, xv, r, i, prec, inside, prev, blk, first, hb, hf, h, hp, hpr => by
    have key := put_parts ps xv r (i + 1) prec true (some t) blk first hb hf h.2.2 hp h.1
    have h0 : (if inside then gapDecos xv r i prec (ps.erase.firstSub (i + 1)) prev t else []) = [] := by
      split
      · rename_i hi
        unfold gapDecos
        simp only [hpr, List.nil_append]
        rw [scan_free _ _ _ _ (h.2.1 hi)]
        rfl
      · rfl
    simp only [AParts.erase, Parts.decos, h0, List.nil_append]
    refine ⟨fun p hp => ?_, fun P hP => ?_⟩
    · obtain ⟨j, q, h1, h2⟩ := key.1 p hp
      exact ⟨j, q, by omega, h2⟩
    · exact key.2 P (fun j q hj => hP j q (by omega))
  | .sub x ps, xv, r, i, prec, inside, prev, blk, first, hb, hf, h, hp, hpr => by
    obtain ⟨h1, h2, h3⟩ := h
    have k1 := put_view x h1 (r ++ [i])
    have k2 := put_parts ps xv r (i + 1) (some (i, x.erase)) (inside || x.erase.first.isSome) (x.erase.lastOr prev) blk
      false hb nofun h3 (by
        intro j z hz hbt
        cases hz
        rw [if_pos hbt] at h2
        exact h2.2.1) (by
        unfold View.lastOr
        split
        · rename_i t ht
          exact put_last x h1 t ht
        · exact hpr)
    -- the comments in front
    obtain ⟨G, hG, hGt, hGa⟩ : ∃ G, (subDecos xv r i prec inside prev x.erase).map Deco.placed = G ∧
        (∀ p ∈ G, p.to.target = r ++ [i]) ∧ annAt G (r ++ [i]) = x.ann := by
      refine ⟨_, rfl, ?_⟩
      cases hbk : blk with
      | true =>
        rw [if_pos hbk] at h2
        obtain ⟨hi, -, t, ht, ha, ho⟩ := h2
        have e : subDecos xv r i prec inside prev x.erase = gapDecos xv r i prec (some (i, x.erase)) prev t := by
          unfold subDecos
          rw [ht, hi]
          rfl
        rw [e, stmt_gap (hb hbk) (fun j z hz => hp j z hz hbk) hpr (fun hne => ho (by
          cases hff : first
          · rfl
          · exact absurd (hf hff) hne)), stmt_ann, ha]
        refine ⟨?_, rfl⟩
        intro p hp
        obtain ⟨c, -, rfl⟩ := List.mem_map.1 hp
        rfl
      | false =>
        rw [hbk, if_neg (by decide)] at h2
        have e : subDecos xv r i prec inside prev x.erase = [] := by
          unfold subDecos
          split
          · rename_i t ht
            split
            · rename_i hi
              unfold gapDecos
              simp only [hpr, List.nil_append]
              rw [scan_free _ _ _ _ (h2.2 hi t ht)]
              rfl
            · rfl
          · rfl
        rw [e, h2.1]
        exact ⟨nofun, rfl⟩
    simp only [AParts.erase, Parts.decos, List.map_append, hG]
    refine ⟨fun p hp => ?_, fun P hP => ?_⟩
    · simp only [List.mem_append] at hp
      rcases hp with (hp | hp) | hp
      · exact ⟨i, [], Nat.le_refl _, hGt p hp⟩
      · obtain ⟨j, q, hj⟩ := k1.1 p hp
        exact ⟨i, j :: q, Nat.le_refl _, by rw [hj]; simp⟩
      · obtain ⟨j, q, hj, e⟩ := k2.1 p hp
        exact ⟨j, q, by omega, e⟩
    · have out2 : ∀ q, annAt ((ps.erase.decos xv r (i + 1) (some (i, x.erase)) (inside || x.erase.first.isSome)
          (x.erase.lastOr prev)).map Deco.placed) (r ++ i :: q) = {} := by
        intro q
        apply annAt_out
        intro p hp he
        obtain ⟨j, q', hj, e⟩ := k2.1 p hp
        rw [e] at he
        have := List.append_cancel_left he
        simp only [List.cons.injEq] at this
        omega
      refine ⟨k1.2 P ?_ ?_, k2.2 P ?_⟩
      · rw [hP i [] (Nat.le_refl _), annAt_left (out2 []), annAt_left, hGa]
        apply annAt_out
        intro p hp he
        obtain ⟨j, q, hj⟩ := k1.1 p hp
        rw [hj] at he
        have := congrArg List.length he
        simp at this
      · intro j q
        have := hP i (j :: q) (Nat.le_refl _)
        rw [annAt_left (out2 _), annAt_right] at this
        · simpa using this
        · apply annAt_out
          intro p hp he
          rw [hGt p hp] at he
          have := congrArg List.length he
          simp at this
      · intro j q hj
        rw [hP j q (by omega), annAt_right]
        apply annAt_out
        intro p hp he
        simp only [List.mem_append] at hp
        rcases hp with hp | hp
        · rw [hGt p hp] at he
          have := List.append_cancel_left he
          simp only [List.cons.injEq] at this
          omega
        · obtain ⟨j', q', hj'⟩ := k1.1 p hp
          rw [hj', List.append_assoc] at he
          have := List.append_cancel_left he
          simp only [List.cons_append, List.nil_append, List.cons.injEq] at this
          omega
end

/-- Nothing changes when comments are attached. -/
theorem put_root {es : Exprs} {eof : Token} (h : (es.aview eof).Put true true true) :
    (⟨{}, es, eof⟩ : Root).attach = ⟨{}, es, eof⟩ := by
  have key := put_parts (es.aview eof) (.node .rRoot (es.view eof)) [] 0 none true none true true
    (fun _ => rfl) (fun _ => rfl) h (nofun) rfl
  unfold Root.attach
  have hP : (⟨{}, es, eof⟩ : Root).placed =
      ((es.aview eof).erase.decos (.node .rRoot (es.view eof)) [] 0 none true none).map Deco.placed := by
    unfold Root.placed Root.view
    rw [View.decos, erase_views]
  rw [hP]
  have h2 := agrees_sames es _ _ _ (key.2 _ (fun _ _ _ => rfl))
  simp only [h2]
  congr
  apply annAt_out
  intro p hp he
  obtain ⟨j, q, -, e⟩ := key.1 p hp
  rw [e] at he
  cases he

end Verif.Format
