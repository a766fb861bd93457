import Verif.Spec.Respaced
import Verif.Lemmas.FormatStill

/-!
# White space does not matter

The formatter, including the placement of comments, looks at line breaks and comments only, and does not count
more than three line breaks.
-/

namespace Verif.Format
open Verif.Syntax

/-! ## Trivia -/

/-- Line breaks up to the first comment. -/
def breaks (ps : List Piece) : Nat :=
  ((ps.takeWhile (fun p => p.kind != .comment)).filter (fun p => p.kind == .newline)).length

theorem breaks_nil : breaks [] = 0 := rfl

theorem breaks_cons (p : Piece) (ps : List Piece) : breaks (p :: ps) =
    (match p.kind with | .comment => 0 | .newline => breaks ps + 1 | .whitespace => breaks ps) := by
  unfold breaks
  cases h : p.kind <;> simp [List.takeWhile_cons, h]

theorem breaks_append (a b : List Piece) :
    breaks (a ++ b) = if hasComment a then breaks a else breaks a + breaks b := by
  induction a with
  | nil => simp [breaks_nil, hasComment]
  | cons p ps ih =>
    rw [List.cons_append, breaks_cons, breaks_cons, ih]
    have : hasComment (p :: ps) = (p.kind == .comment || hasComment ps) := rfl
    rw [this]
    cases h : p.kind
    · cases hasComment ps <;> simp; omega
    · cases hasComment ps <;> simp
    · simp

theorem thin_comment : ∀ (n : Nat) (ps : List Piece), hasComment (thin n ps) = hasComment ps
  | _, [] => rfl
  | n, p :: ps => by
    have h : hasComment (p :: ps) = (p.kind == .comment || hasComment ps) := rfl
    rw [h, thin]
    cases hk : p.kind
    · dsimp only
      split
      · have : ∀ q : List Piece, hasComment (⟨.newline, [10]⟩ :: q) = hasComment q := fun q => rfl
        rw [this, thin_comment]; rfl
      · rw [thin_comment]; rfl
    · dsimp only
      rw [thin_comment]; rfl
    · simp [hasComment, hk]

theorem thin_breaks : ∀ (n : Nat) (ps : List Piece), n ≤ 3 → breaks (thin n ps) = min (3 - n) (breaks ps)
  | n, [], _ => by simp [thin, breaks_nil]
  | n, p :: ps, hn => by
    rw [thin, breaks_cons]
    cases hk : p.kind
    · dsimp only
      split
      · rw [breaks_cons]
        dsimp only
        rw [thin_breaks (n + 1) ps (by omega)]
        omega
      · rw [thin_breaks n ps hn]
        omega
    · dsimp only
      exact thin_breaks n ps hn
    · dsimp only
      rw [breaks_cons, hk]
      simp

theorem thin_newline : ∀ (n : Nat) (ps : List Piece), n < 3 →
    (thin n ps).any (fun p => p.kind == .newline) = ps.any (fun p => p.kind == .newline)
  | _, [], _ => rfl
  | n, p :: ps, hn => by
    rw [thin]
    cases hk : p.kind
    · simp [hn, hk]
    · simp [hk, thin_newline n ps hn]
    · simp [hk, thin_newline 0 ps (by omega)]

/-- As far as it matters for comments. -/
def Comment.thin (c : Comment) : Comment := { c with before := min 2 c.before, after := min 2 c.after }

theorem thin_still : Still Token.thin Comment.thin where
  kind _ := rfl
  text _ := rfl
  lines t := by
    show min 3 (breaks (Format.thin 0 t.leading)) = min 3 (breaks t.leading)
    rw [thin_breaks 0 _ (by omega)]; omega
  newline t := thin_newline 0 _ (by omega)
  leading t := thin_comment 0 _
  trailing t := thin_comment 0 _
  comment _ := rfl
  before c := by show min 2 (min 2 c.before) = _; omega
  after c := by show min 2 (min 2 c.after) = _; omega

theorem id_still : Still (fun t => t) Comment.thin where
  kind _ := rfl
  text _ := rfl
  lines _ := rfl
  newline _ := rfl
  leading _ := rfl
  trailing _ := rfl
  comment _ := rfl
  before c := by show min 2 (min 2 c.before) = _; omega
  after c := by show min 2 (min 2 c.after) = _; omega

/-! ## Comments between two tokens -/

/-- The same for comments that are not attached yet. -/
def Scanned.thin (c : Scanned) : Scanned := { c with before := min 2 c.before, after := min 2 c.after }

theorem scan_cons (m n : Nat) (own : Bool) (p : Piece) (ps : List Piece) : scan m n own (p :: ps) =
    (match p.kind with
    | .newline => scan (m - 1) (n + 1) true ps
    | .whitespace => scan (m - 1) n own ps
    | .comment => ⟨p.text, decide (0 < m), own, n, breaks ps⟩ :: scan (m - 1) 0 own ps) := rfl

/-- Pieces that belong to the second token. -/
theorem scan_thin_second : ∀ (ps : List Piece) (n n' k : Nat) (own : Bool), min 2 n = min 2 n' → k ≤ 3 → k ≤ n' →
    (0 < k → own = true) →
    (scan 0 n' own (thin k ps)).map Scanned.thin = (scan 0 n own ps).map Scanned.thin
  | [], _, _, _, _, _, _, _, _ => rfl
  | p :: ps, n, n', k, own, h, hk, hn, ho => by
    rw [thin, scan_cons]
    cases hp : p.kind
    · dsimp only
      split
      · rw [scan_cons]
        exact scan_thin_second ps (n + 1) (n' + 1) (k + 1) true (by omega) (by omega) (by omega) (fun _ => rfl)
      · rw [ho (by omega)]
        exact scan_thin_second ps (n + 1) n' k true (by omega) hk hn (fun _ => rfl)
    · exact scan_thin_second ps n n' k own h hk hn ho
    · dsimp only
      rw [scan_cons, hp]
      simp only [List.map_cons]
      rw [scan_thin_second ps 0 0 0 own rfl (by omega) (by omega) (by omega)]
      have : min 2 (breaks (thin 0 ps)) = min 2 (breaks ps) := by rw [thin_breaks 0 ps (by omega)]; omega
      simp only [Scanned.thin, this, h]

/-- All pieces between two tokens. -/
theorem scan_thin (b : List Piece) : ∀ (a : List Piece) (n n' k : Nat) (own : Bool), min 2 n = min 2 n' → k ≤ 3 →
    k ≤ n' → (0 < k → own = true) →
    (scan (thin k a).length n' own (thin k a ++ thin 0 b)).map Scanned.thin =
      (scan a.length n own (a ++ b)).map Scanned.thin
  | [], n, n', k, own, h, hk, hn, ho =>
    scan_thin_second b n n' 0 own h (by omega) (by omega) (by omega)
  | p :: a, n, n', k, own, h, hk, hn, ho => by
    rw [List.cons_append, scan_cons, thin, List.length_cons, Nat.add_sub_cancel]
    cases hp : p.kind
    · dsimp only
      split
      · rw [List.cons_append, scan_cons, List.length_cons, Nat.add_sub_cancel]
        exact scan_thin b a (n + 1) (n' + 1) (k + 1) true (by omega) (by omega) (by omega) (fun _ => rfl)
      · rw [ho (by omega)]
        exact scan_thin b a (n + 1) n' k true (by omega) hk hn (fun _ => rfl)
    · exact scan_thin b a n n' k own h hk hn ho
    · dsimp only
      rw [List.cons_append, scan_cons, hp, List.length_cons, Nat.add_sub_cancel]
      simp only [List.map_cons]
      rw [scan_thin b a 0 0 0 own rfl (by omega) (by omega) (by omega)]
      have : min 2 (breaks (thin 0 a ++ thin 0 b)) = min 2 (breaks (a ++ b)) := by
        rw [breaks_append, breaks_append, thin_comment, thin_breaks 0 a (by omega), thin_breaks 0 b (by omega)]
        split <;> omega
      simp only [Scanned.thin, this, h, Nat.zero_lt_succ]

/-! ## Trees -/

mutual
/-- Change every token. -/
def View.map (g : Token → Token) : View → View
  | .node k ps => .node k (ps.map g)
def Parts.map (g : Token → Token) : Parts → Parts
  | .nil => .nil
  | .tok t ps => .tok (g t) (ps.map g)
  | .sub x ps => .sub (x.map g) (ps.map g)
end

variable (g : Token → Token)

mutual
theorem view_first_map : ∀ x : View, (x.map g).first = x.first.map g
  | .node _ ps => by rw [View.map, View.first, View.first, parts_first_map ps]
theorem parts_first_map : ∀ ps : Parts, (ps.map g).first = ps.first.map g
  | .nil => rfl
  | .tok _ _ => rfl
  | .sub x ps => by
    rw [Parts.map, Parts.first, Parts.first, view_first_map x, parts_first_map ps]
    cases x.first <;> rfl
end

mutual
theorem view_last_map : ∀ x : View, (x.map g).last = x.last.map g
  | .node _ ps => by rw [View.map, View.last, View.last, parts_last_map ps]
theorem parts_last_map : ∀ ps : Parts, (ps.map g).last = ps.last.map g
  | .nil => rfl
  | .tok _ ps => by
    rw [Parts.map, Parts.last, Parts.last, parts_last_map ps]
    cases ps.last <;> rfl
  | .sub x ps => by
    rw [Parts.map, Parts.last, Parts.last, view_last_map x, parts_last_map ps]
    cases ps.last <;> rfl
end

theorem view_kind_map (x : View) : (x.map g).kind = x.kind := by cases x; rfl

theorem view_parts_map (x : View) : (x.map g).parts = x.parts.map g := by cases x; rfl

/-- A child with its position. -/
def mapSub (x : Option (Nat × View)) : Option (Nat × View) := x.map (fun x => (x.1, x.2.map g))

theorem parts_firstSub_map : ∀ (ps : Parts) (i : Nat), (ps.map g).firstSub i = mapSub g (ps.firstSub i)
  | .nil, _ => rfl
  | .tok _ ps, i => parts_firstSub_map ps (i + 1)
  | .sub _ _, _ => rfl

theorem parts_slot_map : ∀ (ps : Parts) (n : Nat), (ps.map g).slot n = (ps.slot n).map (·.map g)
  | .nil, n => by cases n <;> rfl
  | .tok _ ps, 0 => rfl
  | .tok _ ps, n + 1 => parts_slot_map ps n
  | .sub _ _, 0 => rfl
  | .sub _ ps, n + 1 => parts_slot_map ps n

theorem parts_prevSub_map (n : Nat) : ∀ (ps : Parts) (i : Nat), (ps.map g).prevSub n i = mapSub g (ps.prevSub n i)
  | .nil, _ => rfl
  | .tok _ ps, i => by
    rw [Parts.map, Parts.prevSub, Parts.prevSub]
    split
    · exact parts_prevSub_map n ps (i + 1)
    · rfl
  | .sub x ps, i => by
    rw [Parts.map, Parts.prevSub, Parts.prevSub, parts_prevSub_map n ps (i + 1)]
    split
    · cases ps.prevSub n (i + 1) <;> rfl
    · rfl

theorem view_hole_map (x : View) : (x.map g).isHole = x.isHole := by
  obtain ⟨k, ps⟩ := x
  cases ps <;> rfl

theorem at_map (x : Option (Nat × View)) : at? (mapSub g x) = at? x := by cases x <;> rfl

/-- A comment with its surroundings. -/
def Deco.map (c : Deco) : Deco :=
  { c with before := min 2 c.before, after := min 2 c.after, enclosing := c.enclosing.map g,
           preceding := mapSub g c.preceding, following := mapSub g c.following }

theorem placeBody_map (r : Ref) (x : View) : placeBody r (x.map g) = placeBody r x := by
  unfold placeBody
  rw [view_kind_map, view_parts_map, parts_firstSub_map]
  cases x.parts.firstSub 0 <;> rfl

theorem placeAlternative_map (r : Ref) (x : View) : placeAlternative r (x.map g) = placeAlternative r x := by
  unfold placeAlternative
  rw [view_kind_map, view_parts_map, parts_slot_map]
  cases x.parts.slot 4 <;> simp [placeBody_map]

theorem place_map (c : Deco) : placeComment (c.map g) = placeComment c := by
  have hloop : ∀ k n, handleLoop k n (c.map g) = handleLoop k n c := fun k n => by
    simp only [handleLoop, Deco.map, view_kind_map, view_parts_map, parts_slot_map, at_map]
    cases c.enclosing.parts.slot n <;> simp [placeBody_map]
  have hfun : handleFunction (c.map g) = handleFunction c := by
    simp only [handleFunction, Deco.map, view_kind_map, view_parts_map, parts_slot_map, at_map]
    cases c.enclosing.parts.slot 2 <;> simp [placeBody_map]
  have hrep : handleRepeat (c.map g) = handleRepeat c := by
    simp only [handleRepeat, Deco.map, view_kind_map, view_parts_map, parts_slot_map]
    cases c.enclosing.parts.slot 1 <;> simp [placeBody_map]
  have hif : handleIf (c.map g) = handleIf c := by
    simp only [handleIf, Deco.map, view_kind_map, view_parts_map, parts_slot_map, at_map]
    cases c.enclosing.parts.slot 2 <;> cases c.enclosing.parts.slot 4 <;> simp [placeBody_map]
    cases c.enclosing.parts.slot 5 with
    | none => simp
    | some x =>
      simp only [Option.map_some, view_parts_map, parts_slot_map, view_kind_map]
      cases x.parts.slot 1 <;> simp [placeAlternative_map]
  have helse : handleElse (c.map g) = handleElse c := by
    simp only [handleElse, Deco.map, view_kind_map, view_parts_map, parts_slot_map, at_map]
    cases c.enclosing.parts.slot 1 <;> simp [placeAlternative_map]
  have hparen : handleParen (c.map g) = handleParen c := by
    simp only [handleParen, Deco.map, view_kind_map, at_map]
  have hname : handleNameClause (c.map g) = handleNameClause c := by
    simp only [handleNameClause, Deco.map, view_kind_map, at_map]
  have harg : handleArgument (c.map g) = handleArgument c := by
    simp only [handleArgument, Deco.map, view_kind_map, at_map, view_parts_map, parts_slot_map, Option.map_map,
      Function.comp_def]
  have hhole : handleHole (c.map g) = handleHole c := by
    simp only [handleHole, Deco.map]
    cases c.preceding with
    | none => rfl
    | some x =>
      simp only [mapSub, Option.map_some, view_hole_map, view_parts_map, parts_prevSub_map]
      cases c.enclosing.parts.prevSub x.1 0 <;> cases c.following <;> simp [view_hole_map, view_kind_map]
  have hdef : placeDefault (c.map g) = placeDefault c := by
    simp only [placeDefault, Deco.map]
    cases c.position <;> cases c.preceding <;> cases c.following <;> rfl
  simp only [placeComment, orElse, hloop, hfun, hrep, hif, helse, hparen, hname, harg, hhole, hdef]
  have : (c.map g).position = c.position := rfl
  rw [this]

/-- An attached comment. -/
def Placed.thin (p : Placed) : Placed := { p with comment := p.comment.thin }

theorem placed_map (c : Deco) : (c.map g).placed = c.placed.thin := by
  have h : ∀ q, (c.map g).precedes q = c.precedes q := fun q => by
    simp only [Deco.precedes, Deco.map, view_parts_map, parts_slot_map]
    cases c.enclosing.parts.slot (c.gap - 1) <;> simp [view_first_map]
  simp only [Deco.placed, place_map, h]
  rfl

/-- The lines around a comment, up to two. -/
def Deco.low (c : Deco) : Deco := { c with before := min 2 c.before, after := min 2 c.after }

theorem placed_low (c : Deco) : c.low.placed = c.placed.thin := rfl

theorem trailingOf_thin (prev : Option Token) : trailingOf (prev.map Token.thin) = thin 0 (trailingOf prev) := by
  cases prev <;> rfl

theorem gapDecos_map (x : View) (r : Ref) (gap : Nat) (prec foll : Option (Nat × View)) (prev : Option Token)
    (u : Token) :
    (gapDecos (x.map Token.thin) r gap (mapSub Token.thin prec) (mapSub Token.thin foll) (prev.map Token.thin)
      (Token.thin u)).map Deco.low = (gapDecos x r gap prec foll prev u).map (Deco.map Token.thin) := by
  have hs := scan_thin u.leading (trailingOf prev) 0 0 0 false rfl (by omega) (by omega) (by omega)
  have hu : (Token.thin u).leading = thin 0 u.leading := rfl
  have hn : (thin 0 (trailingOf prev) ++ thin 0 u.leading).any (fun p => p.kind == .newline) =
      (trailingOf prev ++ u.leading).any (fun p => p.kind == .newline) := by
    rw [List.any_append, List.any_append, thin_newline 0 _ (by omega), thin_newline 0 _ (by omega)]
  unfold gapDecos
  simp only [trailingOf_thin, hu, hn, List.map_map]
  have key : ∀ (eol : Position) (l l' : List Scanned), l.map Scanned.thin = l'.map Scanned.thin →
      l.map (Deco.low ∘ fun c : Scanned => (⟨c.text, c.before, c.after, c.early, if c.own then .ownLine else eol,
        x.map Token.thin, r, gap, mapSub Token.thin prec, mapSub Token.thin foll, (Token.thin u).kind⟩ : Deco)) =
      l'.map (Deco.map Token.thin ∘ fun c : Scanned => (⟨c.text, c.before, c.after, c.early,
        if c.own then .ownLine else eol, x, r, gap, prec, foll, u.kind⟩ : Deco)) := by
    intro eol l
    induction l with
    | nil => intro l' h; cases l' with
      | nil => rfl
      | cons => cases h
    | cons c l ih => intro l' h; cases l' with
      | nil => cases h
      | cons c' l' =>
        simp only [List.map_cons, List.cons.injEq] at h ⊢
        refine ⟨?_, ih l' h.2⟩
        obtain ⟨h, -⟩ := h
        cases c; cases c'
        simp only [Scanned.thin, Scanned.mk.injEq] at h
        obtain ⟨rfl, rfl, rfl, h1, h2⟩ := h
        simp only [Function.comp, Deco.low, Deco.map, h1, h2, Token.thin]
  exact key _ _ _ hs

theorem subDecos_map (x : View) (r : Ref) (i : Nat) (prec : Option (Nat × View)) (inside : Bool)
    (prev : Option Token) (y : View) :
    (subDecos (x.map Token.thin) r i (mapSub Token.thin prec) inside (prev.map Token.thin)
      (y.map Token.thin)).map Deco.low = (subDecos x r i prec inside prev y).map (Deco.map Token.thin) := by
  unfold subDecos
  rw [view_first_map]
  cases y.first with
  | none => rfl
  | some t =>
    simp only [Option.map_some]
    cases inside
    · rfl
    · exact gapDecos_map x r i prec (some (i, y)) prev t

theorem lastOr_map (prev : Option Token) (y : View) : (y.map g).lastOr (prev.map g) = (y.lastOr prev).map g := by
  unfold View.lastOr
  rw [view_last_map]
  cases y.last <;> rfl

mutual
theorem decos_map (r : Ref) (start : Bool) : ∀ x : View,
    ((x.map Token.thin).decos r start).map Deco.low = (x.decos r start).map (Deco.map Token.thin)
  | .node k ps => parts_decos_map (.node k ps) r 0 none start none ps
theorem parts_decos_map (x : View) (r : Ref) (i : Nat) (prec : Option (Nat × View)) (inside : Bool)
    (prev : Option Token) : ∀ ps : Parts,
    ((ps.map Token.thin).decos (x.map Token.thin) r i (mapSub Token.thin prec) inside (prev.map Token.thin)).map
      Deco.low = (ps.decos x r i prec inside prev).map (Deco.map Token.thin)
  | .nil => rfl
  | .tok t ps => by
    simp only [Parts.map, Parts.decos, List.map_append]
    have h := parts_decos_map x r (i + 1) prec true (some t) ps
    simp only [Option.map_some] at h
    rw [h, parts_firstSub_map]
    cases inside
    · rfl
    · simp only [if_true, gapDecos_map]
  | .sub y ps => by
    simp only [Parts.map, Parts.decos, List.map_append]
    have h := parts_decos_map x r (i + 1) (some (i, y)) (inside || y.first.isSome) (y.lastOr prev) ps
    rw [subDecos_map, decos_map _ _ y, view_first_map, lastOr_map, Option.isSome_map]
    rw [← h]
    rfl
end

theorem annAt_thin (P : List Placed) (r : Ref) : annAt (P.map Placed.thin) r = (annAt P r).map Comment.thin := by
  have h : ∀ w, ((P.map Placed.thin).filter (fun p => p.to == ⟨w, r⟩)).map Placed.comment =
      ((P.filter (fun p => p.to == ⟨w, r⟩)).map Placed.comment).map Comment.thin := fun w => by
    induction P with
    | nil => rfl
    | cons p P ih =>
      simp only [List.map_cons, List.filter_cons]
      have : (p.thin.to == ⟨w, r⟩) = (p.to == ⟨w, r⟩) := rfl
      rw [this]
      split
      · simp only [List.map_cons, ih]; rfl
      · exact ih
  simp only [annAt, Ann.map, h]

variable (k : Comment → Comment)

theorem one_map (t : Token) : (Parts.one t).map g = .one (g t) := rfl

mutual
theorem view_map : ∀ e : Expr, (e.map g k).view = e.view.map g
  | .atom _ _ _ => rfl
  | .str _ _ c _ => by cases c <;> rfl
  | .paren _ l e t => by simp [Expr.map, Expr.view, View.map, Parts.map, one_map, view_map e]
  | .braced _ l es t => by simp [Expr.map, Expr.view, View.map, Parts.map, view_maps es]
  | .unary _ o e => by simp [Expr.map, Expr.view, View.map, Parts.map, view_map e]
  | .binary _ x o y => by simp [Expr.map, Expr.view, View.map, Parts.map, view_map x, view_map y]
  | .sel _ _ x o y => by simp [Expr.map, Expr.view, View.map, Parts.map, view_map x, view_map y]
  | .call _ _ f _ l items t => by
    simp [Expr.map, Expr.view, View.map, Parts.map, view_map f, view_mapItems true items]
  | .func _ kw _ l items t b => by
    simp [Expr.map, Expr.view, View.map, Parts.map, view_map b, view_mapItems false items]
  | .ite _ kw l c t b => by simp [Expr.map, Expr.view, View.map, Parts.map, view_map c, view_map b]
  | .itee _ kw l c t b _ el e => by
    simp [Expr.map, Expr.view, View.map, Parts.map, view_map c, view_map b, view_map e]
  | .for_ _ kw l v i s t b => by
    simp [Expr.map, Expr.view, View.map, Parts.map, view_map v, view_map s, view_map b]
  | .while_ _ kw l c t b => by simp [Expr.map, Expr.view, View.map, Parts.map, view_map c, view_map b]
  | .repeat_ _ kw b => by simp [Expr.map, Expr.view, View.map, Parts.map, view_map b]
theorem view_maps : ∀ (es : Exprs) (r : Token), (es.map g k).view (g r) = (es.view r).map g
  | .nil, _ => rfl
  | .cons e es, r => by simp [Exprs.map, Exprs.view, Parts.map, view_map e, view_maps es]
theorem view_mapItems (call : Bool) : ∀ (xs : Items) (r : Token),
    (xs.map g k).view call (g r) = (xs.view call r).map g
  | .nil, _ => rfl
  | .last x, r => by simp [Items.map, Items.view, Parts.map, one_map, view_mapArg call x]
  | .cons x s xs, r => by
    simp [Items.map, Items.view, Parts.map, view_mapArg call x, view_mapItems call xs]
theorem view_mapArg (call : Bool) : ∀ x : Arg, (x.map g k).view call = (x.view call).map g
  | .hole _ => rfl
  | .val _ e => by simp [Arg.map, Arg.view, View.map, Parts.map, view_map e]
  | .name _ _ n q => by simp [Arg.map, Arg.view, View.map, Parts.map, one_map, view_map n]
  | .named _ _ n q e => by simp [Arg.map, Arg.view, View.map, Parts.map, one_map, view_map n, view_map e]
  | .pdef _ n _ q e => by simp [Arg.map, Arg.view, View.map, Parts.map, view_map n, view_map e]
end

/-! ## Attached comments -/

mutual
/-- Attaching thinned comments. -/
theorem annotate_map (P Q : List Placed) (h : ∀ r, (annAt Q r).map k = (annAt P r).map k) (r : Ref) :
    ∀ e : Expr, ((e.map g k).annotate Q r).map (fun t => t) k = (e.annotate P r).map g k
  | .atom _ _ _ => by simp [Expr.map, Expr.annotate, h]
  | .str _ _ c _ => by cases c <;> simp [Expr.map, Expr.annotate, h]
  | .paren _ l e t => by simp [Expr.map, Expr.annotate, h, annotate_map P Q h _ e]
  | .braced _ l es t => by simp [Expr.map, Expr.annotate, h, annotate_maps P Q h _ _ es]
  | .unary _ o e => by simp [Expr.map, Expr.annotate, h, annotate_map P Q h _ e]
  | .binary _ x o y => by simp [Expr.map, Expr.annotate, h, annotate_map P Q h _ x, annotate_map P Q h _ y]
  | .sel _ _ x o y => by simp [Expr.map, Expr.annotate, h, annotate_map P Q h _ x, annotate_map P Q h _ y]
  | .call _ _ f _ l items t => by
    simp [Expr.map, Expr.annotate, h, annotate_map P Q h _ f, annotate_mapItems P Q h _ _ items]
  | .func _ kw _ l items t b => by
    simp [Expr.map, Expr.annotate, h, annotate_map P Q h _ b, annotate_mapItems P Q h _ _ items]
  | .ite _ kw l c t b => by simp [Expr.map, Expr.annotate, h, annotate_map P Q h _ c, annotate_map P Q h _ b]
  | .itee _ kw l c t b _ el e => by
    simp [Expr.map, Expr.annotate, h, annotate_map P Q h _ c, annotate_map P Q h _ b, annotate_map P Q h _ e]
  | .for_ _ kw l v i s t b => by
    simp [Expr.map, Expr.annotate, h, annotate_map P Q h _ v, annotate_map P Q h _ s, annotate_map P Q h _ b]
  | .while_ _ kw l c t b => by simp [Expr.map, Expr.annotate, h, annotate_map P Q h _ c, annotate_map P Q h _ b]
  | .repeat_ _ kw b => by simp [Expr.map, Expr.annotate, h, annotate_map P Q h _ b]
theorem annotate_maps (P Q : List Placed) (h : ∀ r, (annAt Q r).map k = (annAt P r).map k) (r : Ref) (i : Nat) :
    ∀ es : Exprs, ((es.map g k).annotate Q r i).map (fun t => t) k = (es.annotate P r i).map g k
  | .nil => rfl
  | .cons e es => by simp [Exprs.map, Exprs.annotate, annotate_map P Q h _ e, annotate_maps P Q h _ _ es]
theorem annotate_mapItems (P Q : List Placed) (h : ∀ r, (annAt Q r).map k = (annAt P r).map k) (r : Ref) (i : Nat) :
    ∀ xs : Items, ((xs.map g k).annotate Q r i).map (fun t => t) k = (xs.annotate P r i).map g k
  | .nil => rfl
  | .last x => by simp [Items.map, Items.annotate, annotate_mapArg P Q h _ x]
  | .cons x s xs => by
    simp [Items.map, Items.annotate, annotate_mapArg P Q h _ x, annotate_mapItems P Q h _ _ xs]
theorem annotate_mapArg (P Q : List Placed) (h : ∀ r, (annAt Q r).map k = (annAt P r).map k) (r : Ref) :
    ∀ x : Arg, ((x.map g k).annotate Q r).map (fun t => t) k = (x.annotate P r).map g k
  | .hole _ => by simp [Arg.map, Arg.annotate, h]
  | .val _ e => by simp [Arg.map, Arg.annotate, h, annotate_map P Q h _ e]
  | .name _ _ n q => by simp [Arg.map, Arg.annotate, h, annotate_map P Q h _ n]
  | .named _ _ n q e => by
    simp [Arg.map, Arg.annotate, h, annotate_map P Q h _ n, annotate_map P Q h _ e]
  | .pdef _ n _ q e => by
    simp [Arg.map, Arg.annotate, h, annotate_map P Q h _ n, annotate_map P Q h _ e]
end

/-- A file with thinned tokens. -/
def Root.thin (x : Root) : Root := ⟨x.ann, x.es.map Token.thin Comment.thin, Token.thin x.eof⟩

theorem root_placed_thin (x : Root) : x.thin.placed.map Placed.thin = x.placed.map Placed.thin := by
  have h := decos_map [] true x.view
  have hv : x.thin.view = x.view.map Token.thin := by
    simp only [Root.view, Root.thin, View.map, view_maps]
  unfold Root.placed
  rw [hv]
  have h' := congrArg (List.map Deco.placed) h
  simp only [List.map_map] at h' ⊢
  have e1 : (Deco.placed ∘ Deco.low) = (Placed.thin ∘ Deco.placed) := rfl
  have e2 : (Deco.placed ∘ Deco.map Token.thin) = (Placed.thin ∘ Deco.placed) := funext (placed_map _)
  rw [e1, e2] at h'
  exact h'

theorem annAt_alike (x : Root) (r : Ref) :
    (annAt x.thin.placed r).map Comment.thin = (annAt x.placed r).map Comment.thin := by
  rw [← annAt_thin, ← annAt_thin, root_placed_thin]

theorem attach_thin (x : Root) :
    x.thin.attach.es.map (fun t => t) Comment.thin = x.attach.es.map Token.thin Comment.thin :=
  annotate_maps Token.thin Comment.thin x.placed x.thin.placed (annAt_alike x) [] 0 x.es

/-! ## Expressions with the same tokens -/

mutual
/-- The expression with the tokens replaced, in order, and what is left of the tokens. -/
def Expr.fill : Expr → List Token → Expr × List Token
  | .atom _ x1 x2, ts =>
    (.atom {} x1 (ts.headD x2), ts.tail)
  | .str _ x1 x2 x3, ts =>
    (.str {} (ts.headD x1) (x2.map ts.tail.headD) ((ts.tail.drop x2.toList.length).headD x3), (ts.tail.drop x2.toList.length).tail)
  | .paren _ x1 x2 x3, ts =>
    let r2 := x2.fill ts.tail
    (.paren {} (ts.headD x1) r2.1 (r2.2.headD x3), r2.2.tail)
  | .braced _ x1 x2 x3, ts =>
    let r2 := x2.fill ts.tail
    (.braced {} (ts.headD x1) r2.1 (r2.2.headD x3), r2.2.tail)
  | .unary _ x1 x2, ts =>
    let r2 := x2.fill ts.tail
    (.unary {} (ts.headD x1) r2.1, r2.2)
  | .binary _ x1 x2 x3, ts =>
    let r1 := x1.fill ts
    let r3 := x3.fill r1.2.tail
    (.binary {} r1.1 (r1.2.headD x2) r3.1, r3.2)
  | .sel _ x1 x2 x3 x4, ts =>
    let r2 := x2.fill ts
    let r4 := x4.fill r2.2.tail
    (.sel {} x1 r2.1 (r2.2.headD x3) r4.1, r4.2)
  | .call _ x1 x2 _ x4 x5 x6, ts =>
    let r2 := x2.fill ts
    let r5 := x5.fill r2.2.tail
    (.call {} x1 r2.1 {} (r2.2.headD x4) r5.1 (r5.2.headD x6), r5.2.tail)
  | .func _ x1 _ x3 x4 x5 x6, ts =>
    let r4 := x4.fill ts.tail.tail
    let r6 := x6.fill r4.2.tail
    (.func {} (ts.headD x1) {} (ts.tail.headD x3) r4.1 (r4.2.headD x5) r6.1, r6.2)
  | .ite _ x1 x2 x3 x4 x5, ts =>
    let r3 := x3.fill ts.tail.tail
    let r5 := x5.fill r3.2.tail
    (.ite {} (ts.headD x1) (ts.tail.headD x2) r3.1 (r3.2.headD x4) r5.1, r5.2)
  | .itee _ x1 x2 x3 x4 x5 _ x7 x8, ts =>
    let r3 := x3.fill ts.tail.tail
    let r5 := x5.fill r3.2.tail
    let r8 := x8.fill r5.2.tail
    (.itee {} (ts.headD x1) (ts.tail.headD x2) r3.1 (r3.2.headD x4) r5.1 {} (r5.2.headD x7) r8.1, r8.2)
  | .for_ _ x1 x2 x3 x4 x5 x6 x7, ts =>
    let r3 := x3.fill ts.tail.tail
    let r5 := x5.fill r3.2.tail
    let r7 := x7.fill r5.2.tail
    (.for_ {} (ts.headD x1) (ts.tail.headD x2) r3.1 (r3.2.headD x4) r5.1 (r5.2.headD x6) r7.1, r7.2)
  | .while_ _ x1 x2 x3 x4 x5, ts =>
    let r3 := x3.fill ts.tail.tail
    let r5 := x5.fill r3.2.tail
    (.while_ {} (ts.headD x1) (ts.tail.headD x2) r3.1 (r3.2.headD x4) r5.1, r5.2)
  | .repeat_ _ x1 x2, ts =>
    let r2 := x2.fill ts.tail
    (.repeat_ {} (ts.headD x1) r2.1, r2.2)
def Exprs.fill : Exprs → List Token → Exprs × List Token
  | .nil, ts => (.nil, ts)
  | .cons x xs, ts =>
    let r := x.fill ts
    let s := xs.fill r.2
    (.cons r.1 s.1, s.2)
def Items.fill : Items → List Token → Items × List Token
  | .nil, ts => (.nil, ts)
  | .last x, ts =>
    let r := x.fill ts
    (.last r.1, r.2)
  | .cons x s xs, ts =>
    let r := x.fill ts
    let u := xs.fill r.2.tail
    (.cons r.1 (r.2.headD s) u.1, u.2)
def Arg.fill : Arg → List Token → Arg × List Token
  | .hole _, ts =>
    (.hole {}, ts)
  | .val _ x1, ts =>
    let r1 := x1.fill ts
    (.val {} r1.1, r1.2)
  | .name _ _ x2 x3, ts =>
    let r2 := x2.fill ts
    (.name {} {} r2.1 (r2.2.headD x3), r2.2.tail)
  | .named _ _ x2 x3 x4, ts =>
    let r2 := x2.fill ts
    let r4 := x4.fill r2.2.tail
    (.named {} {} r2.1 (r2.2.headD x3) r4.1, r4.2)
  | .pdef _ x1 _ x3 x4, ts =>
    let r1 := x1.fill ts
    let r4 := x4.fill r1.2.tail
    (.pdef {} r1.1 {} (r1.2.headD x3) r4.1, r4.2)
end

variable (P : List Placed)

mutual
/-- An expression is determined by its tokens and what it is without them, up to the comments attached. -/
theorem fill_tokens : ∀ (e : Expr) (ts : List Token),
    (e.bare.fill (e.tokens ++ ts)).2 = ts ∧
    (∀ r, (e.bare.fill (e.tokens ++ ts)).1.annotate P r = e.annotate P r) ∧
    (e.bare.fill (e.tokens ++ ts)).1.view = e.view
  | .atom _ x1 x2, ts => by simp [Expr.bare, Expr.fill, Expr.tokens, Expr.annotate, Expr.view]
  | .str _ x1 x2 x3, ts => by cases x2 <;> simp [Expr.bare, Expr.fill, Expr.tokens, Expr.annotate, Expr.view]
  | .paren _ x1 x2 x3, ts => by simp [Expr.bare, Expr.fill, Expr.tokens, Expr.annotate, Expr.view, fill_tokens x2]
  | .braced _ x1 x2 x3, ts => by simp [Expr.bare, Expr.fill, Expr.tokens, Expr.annotate, Expr.view, fill_tokenss x2]
  | .unary _ x1 x2, ts => by simp [Expr.bare, Expr.fill, Expr.tokens, Expr.annotate, Expr.view, fill_tokens x2]
  | .binary _ x1 x2 x3, ts => by simp [Expr.bare, Expr.fill, Expr.tokens, Expr.annotate, Expr.view, fill_tokens x1, fill_tokens x3]
  | .sel _ x1 x2 x3 x4, ts => by simp [Expr.bare, Expr.fill, Expr.tokens, Expr.annotate, Expr.view, fill_tokens x2, fill_tokens x4]
  | .call _ x1 x2 _ x4 x5 x6, ts => by simp [Expr.bare, Expr.fill, Expr.tokens, Expr.annotate, Expr.view, fill_tokens x2, fill_tokensItems x5]
  | .func _ x1 _ x3 x4 x5 x6, ts => by simp [Expr.bare, Expr.fill, Expr.tokens, Expr.annotate, Expr.view, fill_tokensItems x4, fill_tokens x6]
  | .ite _ x1 x2 x3 x4 x5, ts => by simp [Expr.bare, Expr.fill, Expr.tokens, Expr.annotate, Expr.view, fill_tokens x3, fill_tokens x5]
  | .itee _ x1 x2 x3 x4 x5 _ x7 x8, ts => by simp [Expr.bare, Expr.fill, Expr.tokens, Expr.annotate, Expr.view, fill_tokens x3, fill_tokens x5, fill_tokens x8]
  | .for_ _ x1 x2 x3 x4 x5 x6 x7, ts => by simp [Expr.bare, Expr.fill, Expr.tokens, Expr.annotate, Expr.view, fill_tokens x3, fill_tokens x5, fill_tokens x7]
  | .while_ _ x1 x2 x3 x4 x5, ts => by simp [Expr.bare, Expr.fill, Expr.tokens, Expr.annotate, Expr.view, fill_tokens x3, fill_tokens x5]
  | .repeat_ _ x1 x2, ts => by simp [Expr.bare, Expr.fill, Expr.tokens, Expr.annotate, Expr.view, fill_tokens x2]
theorem fill_tokenss : ∀ (es : Exprs) (ts : List Token),
    (es.bare.fill (es.tokens ++ ts)).2 = ts ∧
    (∀ r i, (es.bare.fill (es.tokens ++ ts)).1.annotate P r i = es.annotate P r i) ∧
    ∀ t, (es.bare.fill (es.tokens ++ ts)).1.view t = es.view t
  | .nil, ts => by simp [Exprs.bare, Exprs.fill, Exprs.tokens]
  | .cons x xs, ts => by
    simp [Exprs.bare, Exprs.fill, Exprs.tokens, Exprs.annotate, Exprs.view, fill_tokens x,
      fill_tokenss xs]
theorem fill_tokensItems : ∀ (xs : Items) (ts : List Token),
    (xs.bare.fill (xs.tokens ++ ts)).2 = ts ∧
    (∀ r i, (xs.bare.fill (xs.tokens ++ ts)).1.annotate P r i = xs.annotate P r i) ∧
    ∀ call t, (xs.bare.fill (xs.tokens ++ ts)).1.view call t = xs.view call t
  | .nil, ts => by simp [Items.bare, Items.fill, Items.tokens]
  | .last x, ts => by
    simp [Items.bare, Items.fill, Items.tokens, Items.annotate, Items.view, fill_tokensArg x]
  | .cons x s xs, ts => by
    simp [Items.bare, Items.fill, Items.tokens, Items.annotate, Items.view, fill_tokensArg x,
      fill_tokensItems xs]
theorem fill_tokensArg : ∀ (x : Arg) (ts : List Token),
    (x.bare.fill (x.tokens ++ ts)).2 = ts ∧
    (∀ r, (x.bare.fill (x.tokens ++ ts)).1.annotate P r = x.annotate P r) ∧
    ∀ call, (x.bare.fill (x.tokens ++ ts)).1.view call = x.view call
  | .hole _, ts => by simp [Arg.bare, Arg.fill, Arg.tokens, Arg.annotate, Arg.view]
  | .val _ x1, ts => by simp [Arg.bare, Arg.fill, Arg.tokens, Arg.annotate, Arg.view, fill_tokens x1]
  | .name _ _ x2 x3, ts => by simp [Arg.bare, Arg.fill, Arg.tokens, Arg.annotate, Arg.view, fill_tokens x2]
  | .named _ _ x2 x3 x4, ts => by simp [Arg.bare, Arg.fill, Arg.tokens, Arg.annotate, Arg.view, fill_tokens x2, fill_tokens x4]
  | .pdef _ x1 _ x3 x4, ts => by simp [Arg.bare, Arg.fill, Arg.tokens, Arg.annotate, Arg.view, fill_tokens x1, fill_tokens x4]
end

mutual
theorem bare_map (h : ∀ t, bareTok (g t) = bareTok t) : ∀ e : Expr, (e.map g k).bare = e.bare
  | .atom _ x1 x2 => by simp [Expr.map, Expr.bare, h]
  | .str _ x1 x2 x3 => by cases x2 <;> simp [Expr.map, Expr.bare, h]
  | .paren _ x1 x2 x3 => by simp [Expr.map, Expr.bare, h, bare_map h x2]
  | .braced _ x1 x2 x3 => by simp [Expr.map, Expr.bare, h, bare_maps h x2]
  | .unary _ x1 x2 => by simp [Expr.map, Expr.bare, h, bare_map h x2]
  | .binary _ x1 x2 x3 => by simp [Expr.map, Expr.bare, h, bare_map h x1, bare_map h x3]
  | .sel _ x1 x2 x3 x4 => by simp [Expr.map, Expr.bare, h, bare_map h x2, bare_map h x4]
  | .call _ x1 x2 _ x4 x5 x6 => by simp [Expr.map, Expr.bare, h, bare_map h x2, bare_mapItems h x5]
  | .func _ x1 _ x3 x4 x5 x6 => by simp [Expr.map, Expr.bare, h, bare_mapItems h x4, bare_map h x6]
  | .ite _ x1 x2 x3 x4 x5 => by simp [Expr.map, Expr.bare, h, bare_map h x3, bare_map h x5]
  | .itee _ x1 x2 x3 x4 x5 _ x7 x8 => by simp [Expr.map, Expr.bare, h, bare_map h x3, bare_map h x5, bare_map h x8]
  | .for_ _ x1 x2 x3 x4 x5 x6 x7 => by simp [Expr.map, Expr.bare, h, bare_map h x3, bare_map h x5, bare_map h x7]
  | .while_ _ x1 x2 x3 x4 x5 => by simp [Expr.map, Expr.bare, h, bare_map h x3, bare_map h x5]
  | .repeat_ _ x1 x2 => by simp [Expr.map, Expr.bare, h, bare_map h x2]
theorem bare_maps (h : ∀ t, bareTok (g t) = bareTok t) : ∀ es : Exprs, (es.map g k).bare = es.bare
  | .nil => rfl
  | .cons x xs => by simp [Exprs.map, Exprs.bare, bare_map h x, bare_maps h xs]
theorem bare_mapItems (h : ∀ t, bareTok (g t) = bareTok t) : ∀ xs : Items, (xs.map g k).bare = xs.bare
  | .nil => rfl
  | .last x => by simp [Items.map, Items.bare, bare_mapArg h x]
  | .cons x s xs => by simp [Items.map, Items.bare, h, bare_mapArg h x, bare_mapItems h xs]
theorem bare_mapArg (h : ∀ t, bareTok (g t) = bareTok t) : ∀ x : Arg, (x.map g k).bare = x.bare
  | .hole _ => by simp [Arg.map, Arg.bare, h]
  | .val _ x1 => by simp [Arg.map, Arg.bare, h, bare_map h x1]
  | .name _ _ x2 x3 => by simp [Arg.map, Arg.bare, h, bare_map h x2]
  | .named _ _ x2 x3 x4 => by simp [Arg.map, Arg.bare, h, bare_map h x2, bare_map h x4]
  | .pdef _ x1 _ x3 x4 => by simp [Arg.map, Arg.bare, h, bare_map h x1, bare_map h x4]
end

/-! ## The document -/

theorem bareTok_thin (t : Token) : bareTok (Token.thin t) = bareTok t := rfl

/-- Files with the same tokens. -/
theorem thin_attach {x y : Root} (h : Respaced x y) : x.thin.attach = y.thin.attach := by
  have hb : x.thin.es.bare = y.thin.es.bare := by
    simp only [Root.thin, bare_maps _ _ bareTok_thin, h.program]
  have ht : x.thin.es.tokens = y.thin.es.tokens := by
    simp only [Root.thin, tokens_maps, h.trivia]
  have he : x.thin.eof = y.thin.eof := h.last
  have hv : x.thin.view = y.thin.view := by
    have hx := (fill_tokenss [] x.thin.es []).2.2 x.thin.eof
    have hy := (fill_tokenss [] y.thin.es []).2.2 y.thin.eof
    rw [hb, ht, he] at hx
    simp only [Root.view, he]
    rw [← hx, ← hy]
  have hp : x.thin.placed = y.thin.placed := by unfold Root.placed; rw [hv]
  have hx := (fill_tokenss x.thin.placed x.thin.es []).2.1 [] 0
  have hy := (fill_tokenss x.thin.placed y.thin.es []).2.1 [] 0
  rw [hb, ht] at hx
  unfold Root.attach
  rw [← hx, hy, hp, he]

theorem fmtRoot_map {g : Token → Token} {k : Comment → Comment} (hg : Still g k) (o : Opts) (x : Root) (t : Token)
    (hs : rootSuppressed o x.es = false) (ho : x.es.ordinary o = true) :
    fmtRoot o ⟨x.ann.map k, x.es.map g k, t⟩ = fmtRoot o x := by
  unfold fmtRoot
  simp only [rootSuppressed_map hg, hs, nodeDoc_map hg, fmt_maps hg _ _ _ _ ho, dangling_map hg, Bool.false_eq_true,
    if_false]

theorem fmtRoot_thin (o : Opts) (x : Root) (hs : rootSuppressed o x.attach.es = false)
    (ho : x.attach.es.ordinary o = true) : fmtRoot o x.thin.attach = fmtRoot o x.attach := by
  have h := attach_thin x
  have ha : x.thin.attach.ann.map Comment.thin = x.attach.ann.map Comment.thin := annAt_alike x []
  have hs' : rootSuppressed o x.thin.attach.es = false := by
    rw [← rootSuppressed_map id_still, h, rootSuppressed_map thin_still, hs]
  have ho' : x.thin.attach.es.ordinary o = true := by
    rw [← ordinary_maps id_still, h, ordinary_maps thin_still, ho]
  rw [← fmtRoot_map thin_still o x.attach x.eof hs ho, ← fmtRoot_map id_still o x.thin.attach x.eof hs' ho', ha, h]

end Verif.Format
