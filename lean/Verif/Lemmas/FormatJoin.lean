import Verif.Lemmas.FormatChain
import Verif.Spec.Layout

/-!
# Entries on one line
-/

namespace Verif.Format
open Verif.Syntax

/-! ## The last instruction -/

/-- Instructions after which the printer is where it was. -/
def El.isLate : El → Bool
  | .suffix .. | .space => true
  | _ => false

/-- The last text is only followed by postponed comments and spaces. -/
def Halts (x : List El) : Prop :=
  ∃ p e q, x = p ++ e :: q ∧ e.isText = true ∧ ∀ a ∈ q, a.isLate = true

theorem Halts.append {x y : List El} (h : Halts x) (hy : ∀ a ∈ y, a.isLate = true) : Halts (x ++ y) := by
  obtain ⟨p, e, q, rfl, he, hq⟩ := h
  refine ⟨p, e, q ++ y, by simp, he, ?_⟩
  intro a ha
  rcases List.mem_append.mp ha with ha | ha
  · exact hq a ha
  · exact hy a ha

theorem Halts.right {y : List El} (h : Halts y) (x : List El) : Halts (x ++ y) := by
  obtain ⟨p, e, q, rfl, he, hq⟩ := h
  exact ⟨x ++ p, e, q, by simp, he, hq⟩

/-- In all layouts the last text is only followed by postponed comments and spaces. -/
def DHalts (d : Doc) : Prop := ∀ ns m i x, Lays ns m i d x → Halts x

/-- All layouts consist of postponed comments and spaces. -/
def DLate (d : Doc) : Prop := ∀ ns m i x, Lays ns m i d x → ∀ a ∈ x, a.isLate = true

theorem DLate.nil : DLate .nil := by
  rintro ns m i x (rfl : x = _) a ha
  cases ha

theorem DLate.append {a b : Doc} (ha : DLate a) (hb : DLate b) : DLate (a ⊹ b) := by
  rintro ns m i x ⟨y, z, rfl, hy, hz⟩ e he
  rcases List.mem_append.mp he with he | he
  · exact ha _ _ _ _ hy e he
  · exact hb _ _ _ _ hz e he

theorem DLate.trailing (n : Nat) (cs : List Comment) : DLate (trailingDoc n cs) := by
  induction cs generalizing n with
  | nil => exact DLate.nil
  | cons c cs ih =>
    rintro ns m i x ⟨y, z, rfl, (rfl : y = _), hz⟩ e he
    rcases List.mem_append.mp he with he | he
    · rw [List.mem_singleton.mp he]; rfl
    · exact ih _ _ _ _ _ hz e he

theorem DHalts.right {b : Doc} (h : DHalts b) (a : Doc) : DHalts (a ⊹ b) := by
  rintro ns m i x ⟨y, z, rfl, -, hz⟩
  exact (h _ _ _ _ hz).right y

theorem DHalts.late {a b : Doc} (h : DHalts a) (hb : DLate b) : DHalts (a ⊹ b) := by
  rintro ns m i x ⟨y, z, rfl, hy, hz⟩
  exact (h _ _ _ _ hy).append (hb _ _ _ _ hz)

theorem DHalts.group {d : Doc} (h : DHalts d) (ex : Bool) : DHalts (.group ex d) := by
  rintro ns m i x ⟨m', -, hx⟩
  exact h _ _ _ _ hx

theorem DHalts.indent {d : Doc} (h : DHalts d) : DHalts (.indent d) := fun ns m _ x hx => h ns m _ x hx

theorem DHalts.alt {a b : Doc} (ha : DHalts a) (hb : DHalts b) : DHalts (.alt a b) := by
  rintro ns m i x (hx | hx)
  · exact ha _ _ _ _ hx
  · exact hb _ _ _ _ hx

theorem DHalts.tok (t : Tok) : DHalts (.tok t) := by
  rintro ns m i x (rfl : x = _)
  exact ⟨[], .tok t, [], rfl, rfl, by simp⟩

theorem DHalts.tokDoc (t : Token) : DHalts (tokDoc t) := DHalts.tok _

theorem DHalts.node {d dg : Doc} (h : DHalts d) (hd : DLate dg) (a : Ann) : DHalts (nodeDoc a d dg) :=
  (h.late (hd.append (DLate.trailing _ _))).right _

theorem DLate.dangling {cs : List Comment} (h : cs.isEmpty = true) : DLate (danglingSoft cs) := by
  rw [List.isEmpty_iff.mp h]
  exact DLate.nil

theorem rawEls_end : ∀ {ts : List Token}, ts ≠ [] → ∃ p t, rawEls ts = p ++ [.tok t]
  | [], h => absurd rfl h
  | [t], _ => ⟨[], _, rfl⟩
  | t :: u :: ts, _ => by
    obtain ⟨p, v, h⟩ := rawEls_end (ts := u :: ts) (by simp)
    rw [rawEls, h]
    exact ⟨El.tok (outTok t) :: (t.trailing.map pieceEl ++ u.leading.map pieceEl ++ p), v, by simp⟩

theorem DHalts.verbatim {ts : List Token} (h : ts ≠ []) (a : Ann) : DHalts (verbatimDoc a ts) := by
  refine DHalts.right (DHalts.late ?_ (DLate.trailing _ _)) _
  rintro ns m i x (rfl : x = _)
  obtain ⟨p, t, e⟩ := rawEls_end h
  exact ⟨p, .tok t, [], e, rfl, by simp⟩

theorem DHalts.wrap {d : Doc} (h : DHalts d) (o : Opts) (cx : Cx) {e : Expr}
    (he : e.isBraced = true ∨ e.ann.dangling.isEmpty = true) : DHalts (wrapDoc o cx e d) := by
  unfold wrapDoc
  split
  · exact h.late (DLate.trailing _ _)
  · split
    · exact DHalts.verbatim (tokens_ne_nil e) _
    · refine h.node ?_ _
      split
      · exact DLate.nil
      · next hb => exact DLate.dangling (he.resolve_left hb)

theorem DHalts.body {d : Doc} (h : DHalts d) (as force : Bool) : DHalts (bodyDoc as force d) := by
  unfold bodyDoc
  split
  · exact h
  · unfold braceDoc
    split
    · exact ((DHalts.tok _).right _).right _
    · refine DHalts.right ?_ _
      rintro ns m i x ⟨y, z, rfl, hy, ⟨rfl, hz⟩ | ⟨rfl, rfl⟩⟩
      · exact (DHalts.tok _ _ _ _ _ hz).right _
      · obtain ⟨u, v, rfl, hu, (rfl : v = _)⟩ := hy
        have := (h.right _).indent _ _ _ _ hu
        simpa [layLine] using this

theorem bracedDoc_last (cx : Cx) (a : Ann) (l : Token) (es : Exprs) (d : Doc) (r : Token) :
    DHalts (bracedDoc cx a l es d r) := by
  unfold bracedDoc
  split
  · exact ((DHalts.tokDoc r).right _).right _
  · split
    · refine DHalts.group ?_ _
      refine DHalts.right (DHalts.right (DHalts.right (DHalts.right (DHalts.right ?_ _) _) _) _) _
      exact (DHalts.tokDoc r).late (DLate.trailing _ _)
    · exact ((DHalts.tokDoc r).right _).right _

theorem brokenOut_last (ex : Bool) (l r : Token) (h a : List ItemDoc) : DHalts (brokenOut ex l h a r) :=
  ((((((DHalts.tokDoc r).right _).right _).right _).right _)).group _

theorem argsDoc_last (o : Opts) (k : CallKind) (aa : Ann) (l : Token) (items : Items)
    (ds : List ItemDoc) (r : Token) : DHalts (argsDoc o k aa l items ds r) := by
  unfold argsDoc
  split
  · exact ((DHalts.tokDoc r).right _).right _
  · split
    · exact ((DHalts.tokDoc r).right _).right _
    · dsimp only
      split
      · exact brokenOut_last _ _ _ _ _
      · split
        · exact brokenOut_last _ _ _ _ _
        · split
          · unfold groupedArgs
            exact ((((DHalts.tokDoc r).right _).right _).group _).alt
              (((((DHalts.tokDoc r).right _).right _).group _).alt (brokenOut_last _ _ _ _ _))
          · exact brokenOut_last _ _ _ _ _

theorem tableDoc_last (o : Opts) {aa : Ann} (l : Token) (items : Items) (ds : List ItemDoc)
    (r : Token) : DHalts (tableDoc o aa l items ds r) := by
  unfold tableDoc
  split
  · exact argsDoc_last _ _ _ _ _ _ _
  · exact ((((DHalts.tokDoc r).right _).right _).group _).alt (DHalts.verbatim (by simp) _)

theorem fmt_last (o : Opts) : ∀ (e : Expr) (cx : Cx), e.endsClean = true → DHalts (fmt o cx e)
  | .atom .., cx, h => by rw [fmt]; exact (DHalts.tokDoc _).wrap _ _ (.inr h)
  | .str a p c l, cx, h => by
    cases c <;> simp only [fmt] <;> exact (((DHalts.tokDoc _).right _).right _).wrap _ _ (.inr h)
  | .paren .., cx, h => by rw [fmt]; exact (((DHalts.tokDoc _).right _).right _).wrap _ _ (.inr h)
  | .braced a l es r, cx, h => by
    rw [fmt]
    exact (bracedDoc_last _ _ _ _ _ _).wrap _ _ (.inl rfl)
  | .unary a op e, cx, h => by
    simp only [Expr.endsClean, Bool.and_eq_true, Bool.not_eq_true'] at h
    rw [fmt]
    refine DHalts.wrap (DHalts.right (DHalts.right ?_ _) _) _ _ (.inr h.1.1)
    rw [if_neg (by simp [h.1.2])]
    exact fmt_last o e _ h.2
  | .binary a x op y, cx, h => by
    simp only [Expr.endsClean, Bool.and_eq_true] at h
    have hy := fun cx => fmt_last o y cx h.2
    rw [fmt]
    refine DHalts.wrap ?_ _ _ (.inr h.1)
    split
    · exact (((hy _).right _).right _).group _
    · split
      · refine DHalts.group (DHalts.right (DHalts.right (DHalts.right ?_ _) _) _) _
        dsimp only
        split
        · exact ((hy _).right _).indent
        · exact (hy _).right _
      · split
        · dsimp only
          have hp : ∀ d : Doc, DHalts (d ⊹ (if cx.aligned then
              chainPiece op y (fmt o (opCx cx op.kind) y)
              else .indent (chainPiece op y (fmt o (opCx cx op.kind) y)))) := by
            intro d
            refine DHalts.right ?_ _
            have : DHalts (chainPiece op y (fmt o (opCx cx op.kind) y)) :=
              (((hy _).right _).right _).right _
            split
            · exact this
            · exact this.indent
          split
          · exact hp _
          · exact (hp _).group _
        · exact ((((hy _).right _).indent.right _).right _).right _ |>.group _
  | .sel a k x op y, cx, h => by
    simp only [Expr.endsClean, Bool.and_eq_true] at h
    rw [fmt]
    exact ((((fmt_last o y _ h.2).right _).right _).group _).wrap _ _ (.inr h.1)
  | .call a k f aa l items r, cx, h => by
    rw [fmt]
    refine DHalts.wrap (DHalts.right (DHalts.node (dg := .nil) ?_ DLate.nil _) _) _ _ (.inr h)
    split
    · exact tableDoc_last _ _ _ _ _
    · exact argsDoc_last _ _ _ _ _ _ _
  | .func a kw pa l items r b, cx, h => by
    simp only [Expr.endsClean, Bool.and_eq_true] at h
    rw [fmt]
    exact ((((((fmt_last o b _ h.2).body _ _).right _).right _).right _).group _).wrap _ _ (.inr h.1)
  | .ite a kw l c r t, cx, h => by
    simp only [Expr.endsClean, Bool.and_eq_true] at h
    rw [fmt]
    refine DHalts.wrap (DHalts.group ?_ _) _ _ (.inr h.1)
    exact ((((((((fmt_last o t _ h.2).body _ _).right _).right _).right _).right _).right _).right _)
  | .itee a kw l c r t ea el e, cx, h => by
    simp only [Expr.endsClean, Bool.and_eq_true] at h
    rw [fmt]
    refine DHalts.wrap (DHalts.group ?_ _) _ _ (.inr h.1.1)
    refine DHalts.right (DHalts.right (DHalts.right (DHalts.right (DHalts.right (DHalts.right
      (DHalts.right (DHalts.right ?_ _) _) _) _) _) _) _) _
    exact ((((fmt_last o e _ h.2).body _ _).right _).right _).node (DLate.dangling h.1.2) _
  | .for_ a kw l v i s r b, cx, h => by
    simp only [Expr.endsClean, Bool.and_eq_true] at h
    rw [fmt]
    refine DHalts.wrap (DHalts.group ?_ _) _ _ (.inr h.1)
    iterate 10 refine DHalts.right ?_ _
    exact (fmt_last o b _ h.2).body _ _
  | .while_ a kw l c r b, cx, h => by
    simp only [Expr.endsClean, Bool.and_eq_true] at h
    rw [fmt]
    refine DHalts.wrap (DHalts.group ?_ _) _ _ (.inr h.1)
    iterate 6 refine DHalts.right ?_ _
    exact (fmt_last o b _ h.2).body _ _
  | .repeat_ a kw b, cx, h => by
    simp only [Expr.endsClean, Bool.and_eq_true] at h
    rw [fmt]
    refine DHalts.wrap (DHalts.group ?_ _) _ _ (.inr h.1)
    iterate 2 refine DHalts.right ?_ _
    exact (fmt_last o b _ h.2).body _ _

/-! ## Entries -/

/-- Without line breaks, postponed comments are all that can follow. -/
theorem tail_late {y : List El} (h : ∀ a ∈ y, a.isTail = true) (hn : y.any El.isNl = false) :
    ∀ a ∈ y, a.isLate = true := by
  intro a ha
  have h1 := h a ha
  have h2 := (List.any_eq_false.mp hn) a ha
  cases a <;> first | rfl | (cases h1; done) | exact absurd rfl h2

theorem Ends.halts {y : List El} (h : Ends y) (hn : y.any El.isNl = false) : Halts y := by
  obtain ⟨p, e, q, rfl, he, hq⟩ := h
  refine ⟨p, e, q, rfl, he, tail_late hq ?_⟩
  simp only [List.any_append, List.any_cons, Bool.or_eq_false_iff] at hn
  exact hn.2.2

theorem any_split {p : El → Bool} {x y : List El} (h : (x ++ y).any p = false) :
    x.any p = false ∧ y.any p = false := by
  simpa only [List.any_append, Bool.or_eq_false_iff] using h

theorem stops_may {b : Doc} (hb : DMay b) {ns : Bool} {m : Mode} {i : Nat} {x y : List El}
    (hx : Halts x) (hy : Lays ns m i b y) (hn : y.any El.isNl = false) : Halts (x ++ y) := by
  rcases hb _ _ _ _ hy with h | h
  · exact hx.append (tail_late h hn)
  · exact (h.halts hn).right _

theorem stops_node {d dg : Doc} {a : Ann} {ns : Bool} {m : Mode} {i : Nat} {y : List El}
    (hy : Lays ns m i (nodeDoc a d dg) y) (hdg : DMay dg) (hn : y.any El.isNl = false)
    (hd : ∀ y, Lays ns m i d y → y.any El.isNl = false → Halts y) : Halts y := by
  obtain ⟨u, v, rfl, -, w, z, rfl, hw, x, t, rfl, hx, ht⟩ := hy
  obtain ⟨-, hn⟩ := any_split hn
  obtain ⟨h1, hn⟩ := any_split hn
  obtain ⟨h2, h3⟩ := any_split hn
  refine Halts.right ?_ _
  rw [← List.append_assoc]
  exact stops_may (DTail.trailing _ _).may (stops_may hdg (hd _ hw h1) hx h2) ht h3

theorem fmt_stops {o : Opts} {cx : Cx} {e : Expr} {ns : Bool} {m : Mode} {i : Nat} {y : List El}
    (hy : Lays ns m i (fmt o cx e) y) (hn : y.any El.isNl = false) : Halts y :=
  (fmt_ends o e cx _ _ _ _ hy).halts hn

/-- An argument that ends cleanly, or on one line. -/
theorem fmtArg_stops {o : Opts} {vcx : Cx} {x : Arg} (hx : x.isHole = false)
    {ns : Bool} {m : Mode} {i : Nat} {y : List El} (hy : Lays ns m i (fmtArg o vcx x) y)
    (hc : x.endsClean = true ∨ y.any El.isNl = false) : Halts y := by
  cases x with
  | hole a => cases hx
  | val a e =>
    rw [fmtArg] at hy
    rcases hc with hc | hc
    · simp only [Arg.endsClean, Bool.and_eq_true] at hc
      exact fmt_last o e _ hc.2 _ _ _ _ hy
    · exact fmt_stops hy hc
  | name a na n q =>
    rw [fmtArg] at hy
    obtain ⟨u, v, rfl, hu, (rfl : v = _)⟩ := hy
    refine Halts.append ?_ (by simp [El.isLate])
    rcases hc with hc | hc
    · simp only [Arg.endsClean, Bool.and_eq_true] at hc
      exact (((DHalts.tokDoc q).right _).right _).node (DLate.dangling hc.2) _ _ _ _ _ hu
    · refine stops_node hu (DMay.danglingSoft _) (any_split hc).1 (fun y hy hn => ?_)
      exact (((DEnds.tokDoc q).right _).right _ _ _ _ _ hy).halts hn
  | named a na n q e =>
    rw [fmtArg] at hy
    obtain ⟨u, v, rfl, hu, s, t, rfl, (rfl : s = _), ht⟩ := hy
    refine Halts.right (Halts.right ?_ _) _
    rcases hc with hc | hc
    · simp only [Arg.endsClean, Bool.and_eq_true] at hc
      exact fmt_last o e _ hc.2 _ _ _ _ ht
    · exact fmt_stops ht (any_split (any_split hc).2).2
  | pdef a n da q e =>
    rw [fmtArg] at hy
    obtain ⟨u, v, rfl, hu, s, t, rfl, (rfl : s = _), ht⟩ := hy
    refine Halts.right (Halts.right ?_ _) _
    rcases hc with hc | hc
    · simp only [Arg.endsClean, Bool.and_eq_true] at hc
      exact (((fmt_last o e _ hc.2).right _).right _).node (DLate.dangling hc.1.2) _ _ _ _ _ ht
    · refine stops_node ht (DMay.danglingSoft _) (any_split (any_split hc).2).2 (fun y hy hn => ?_)
      exact (((fmt_ends o e _).right _).right _ _ _ _ _ hy).halts hn

/-- The instructions of an entry: nothing if it is left out. -/
def EntryEls (o : Opts) (d : ItemDoc) (y : List El) : Prop :=
  (d.arg.isHole = true ∧ d.sep = none ∧ y = []) ∨
  (Begins y ∧ Halts y ∧ ∃ x', BecomesArg o d.arg x' ∧
    printedToks y = (x'.tokens ++ d.sep.toList).map outTok)

/-- The document is that of the argument in some context. -/
def Shaped (o : Opts) (x : Arg) (d : Doc) : Prop :=
  (∃ vcx, At vcx {} ∧ d = nodeDoc x.ann (fmtArg o vcx x) (danglingSoft x.ann.dangling)) ∧
  (∀ a, x = .hole a → a = {})

theorem shaped_entry {o : Opts} {d : ItemDoc} {dd : Doc} (h : Shaped o d.arg dd)
    {ns : Bool} {m : Mode} {i : Nat} {y : List El} (hc : d.sep.isSome = true ∨ d.arg.endsClean = true ∨ y.any El.isNl = false)
    (hy : Lays ns m i (dd ⊹ d.sepDoc) y) : EntryEls o d y := by
  obtain ⟨⟨vcx, hv, rfl⟩, hh⟩ := h
  obtain ⟨w, z, rfl, hw, hz⟩ := hy
  obtain ⟨w', hw', ht'⟩ := node_toks hw (danglingSoft_noTok _ _ _ _)
  obtain ⟨x', hb, ht⟩ := fmtArg_becomes hv hw'
  rw [← ht'] at ht
  have hz' : z = d.sep.toList.map (fun t => .tok (outTok t)) := by
    unfold ItemDoc.sepDoc at hz
    split at hz
    · next s hs => rw [hs]; cases hz; rfl
    · next hs => rw [hs]; cases hz; rfl
  subst hz'
  have htoks : printedToks (w ++ d.sep.toList.map (fun t => El.tok (outTok t))) =
      (x'.tokens ++ d.sep.toList).map outTok := by
    rw [printedToks_append, ht, List.map_append]
    congr 1
    cases d.sep <;> rfl
  by_cases hole : d.arg.isHole = true
  · have hw0 : w = [] := by
      obtain ⟨a, ha⟩ : ∃ a, d.arg = .hole a := by
        cases hd : d.arg <;> simp_all [Arg.isHole]
      have := hh _ ha
      subst this
      rw [ha, fmtArg] at hw
      obtain ⟨p, q, rfl, (rfl : p = _), y, z, rfl, (rfl : y = _), u, v, rfl, (rfl : u = _), (rfl : v = _)⟩ := hw
      rfl
    subst hw0
    cases hs : d.sep with
    | none => exact .inl ⟨hole, hs, rfl⟩
    | some s =>
      rw [hs] at htoks
      exact .inr ⟨⟨_, [], rfl, rfl⟩, ⟨[], .tok (outTok s), [], rfl, rfl, by simp⟩, x', hb, by rw [hs]; exact htoks⟩
  · have hole : d.arg.isHole = false := by simpa using hole
    refine .inr ⟨((((fmtArg_edges hole).1).node _ _) _ _ _ _ hw).append _, ?_, x', hb, htoks⟩
    cases hs : d.sep with
    | some s => exact ⟨w, .tok (outTok s), [], rfl, rfl, by simp⟩
    | none =>
      rw [hs] at hc
      have hc' : d.arg.endsClean = true ∨ w.any El.isNl = false := by simpa using hc
      clear hc
      rw [show w ++ List.map (fun t => El.tok (outTok t)) (Option.none (α := Token)).toList = w by simp]
      rcases hc' with hc | hc
      · have hd : d.arg.ann.dangling.isEmpty = true := by
          cases hx : d.arg <;> rw [hx] at hc hole <;>
            simp only [Arg.endsClean, Bool.and_eq_true] at hc <;>
            first | (cases hole; done) | exact hc.1 | exact hc.1.1
        obtain ⟨u1, u2, rfl, -, u3, u4, rfl, hu, u5, u6, rfl, hu5, hu6⟩ := hw
        refine Halts.right ?_ _
        refine (fmtArg_stops hole hu (.inl hc)).append (fun a ha => ?_)
        rcases List.mem_append.mp ha with ha | ha
        · exact DLate.dangling hd _ _ _ _ hu5 a ha
        · exact DLate.trailing _ _ _ _ _ _ hu6 a ha
      · exact stops_node hw (DMay.danglingSoft _) hc (fun y hy hn => fmtArg_stops hole hy (.inr hn))

/-- Entries after the first, each after a space. -/
def JoinEls (o : Opts) : List ItemDoc → List El → Prop
  | [], x => x = []
  | d :: ds, x => ∃ y z, x = .space :: (y ++ z) ∧ EntryEls o d y ∧ JoinEls o ds z

theorem late_run : ∀ (q : List El) (s : PState), (∀ a ∈ q, a.isLate = true) → s.started = true →
    (run s q).1 = [] ∧ (run s q).2.started = true ∧ (run s q).2.ind = s.ind
  | [], s, _, hs => ⟨rfl, hs, rfl⟩
  | a :: q, s, hq, hs => by
    have h1 : (printEl s a).1 = [] ∧ (printEl s a).2.started = true ∧ (printEl s a).2.ind = s.ind := by
      have := hq a (by simp)
      cases a <;> first | (cases this; done) | exact ⟨rfl, hs, rfl⟩
    obtain ⟨k1, k2, k3⟩ := late_run q (printEl s a).2 (fun b hb => hq b (by simp [hb])) h1.2.1
    simp only [run]
    exact ⟨by rw [h1.1, k1]; rfl, k2, k3.trans h1.2.2⟩

theorem stops_run {x : List El} (h : Halts x) (s : PState) :
    (∃ r t, (run s x).1 = r ++ [t] ∧ t.isText = true) ∧ (run s x).2.started = true ∧
      (run s x).2.ind = 0 := by
  obtain ⟨p, e, q, rfl, he, hq⟩ := h
  rw [show p ++ e :: q = p ++ ([e] ++ q) from rfl, run_append, run_append, run_single]
  have hpr : printEl (run s p).2 e = printText (run s p).2 e := by
    cases e <;> simp_all [El.isText, printEl]
  rw [hpr, printText_eq]
  dsimp only
  obtain ⟨k1, k2, k3⟩ := late_run q
    { (run s p).2 with started := true, space := false, ind := 0, emptyLine := false } hq rfl
  exact ⟨⟨(run s p).1 ++ pendingEls (run s p).2, e, by rw [k1]; simp, he⟩, k2, k3⟩

theorem begins_run {x : List El} (hb : Begins x) (s : PState) :
    ∃ a r, (run s x).1 = pendingEls s ++ a :: r ∧ a.isText = true := by
  obtain ⟨e, r, rfl, ht⟩ := hb
  have hpr : printEl s e = printText s e := by
    cases e <;> simp_all [El.isText, printEl]
  refine ⟨e, (run (printEl s e).2 r).1, ?_, ht⟩
  simp only [run, hpr, printText_eq]
  rw [List.append_assoc]
  rfl

/-- One entry. -/
theorem entryEls_run {o : Opts} {d : ItemDoc} {y : List El} (hb : Begins y) (hs : Halts y)
    (hx : ∃ x', BecomesArg o d.arg x' ∧ printedToks y = (x'.tokens ++ d.sep.toList).map outTok)
    (s : PState) : ∃ a, (run s y).1 = pendingEls s ++ a ∧ Entry o d.arg d.sep a ∧
      (run s y).2.started = true ∧ (run s y).2.ind = 0 := by
  obtain ⟨⟨r, t, h1, h6⟩, h2, h3⟩ := stops_run hs s
  obtain ⟨a, q, h4, h5⟩ := begins_run hb s
  obtain ⟨x', hx, ht⟩ := hx
  refine ⟨a :: q, h4, ⟨⟨a, q, rfl, h5⟩, ?_, x', hx, ?_⟩, h2, h3⟩
  · rw [h4] at h1
    rcases List.eq_nil_or_concat q with rfl | ⟨q', b, rfl⟩
    · exact ⟨[], a, rfl, h5⟩
    · rw [List.concat_eq_append] at h1
      have : (pendingEls s ++ a :: q') ++ [b] = r ++ [t] := by simpa using h1
      have := (List.append_inj' this rfl).2
      obtain rfl : b = t := by simpa using this
      exact ⟨a :: q', b, by simp, h6⟩
  · rw [← ht, ← printedToks_run s y, h4, printedToks_append, (pending_noTok s : printedToks _ = [])]
    rfl

/-- The entries after the first and the closing delimiter. -/
theorem joins_run (o : Opts) (r : Token) : ∀ (ds : List ItemDoc) (x : List El) (s : PState),
    Formeds o ds → JoinEls o ds x → s.started = true → s.ind = 0 →
    Joins o r (ds.map fun d => (d.arg, d.sep)) (run s (x ++ [.tok (outTok r)])).1
  | [], x, s, _, hx, hs, hi => by
    cases hx
    rw [List.nil_append, run_tok]
    refine ⟨pendingEls s, ?_, rfl⟩
    unfold pendingEls
    rw [hi]
    cases s.space
    · exact .inl rfl
    · exact .inr rfl
  | d :: ds, x, s, hF, hx, hs, hi => by
    obtain ⟨y, z, rfl, hy, hz⟩ := hx
    have hp : pendingEls (printSpace s) = [.blank [32]] := by
      unfold pendingEls printSpace
      rw [hi, hs]
      simp
    have h0 : run s (El.space :: (y ++ z) ++ [.tok (outTok r)]) =
        run (printSpace s) (y ++ (z ++ [.tok (outTok r)])) := by
      rw [show El.space :: (y ++ z) ++ [El.tok (outTok r)] = [.space] ++ (y ++ (z ++ [.tok (outTok r)])) by
        simp, run_append, run_single]
      rfl
    rw [h0]
    rcases hy with ⟨h1, h2, rfl⟩ | ⟨h1, h2, h3⟩
    · have := hF.2.1 h2
      subst this
      cases hz
      refine .inl ⟨h1, h2, rfl, ?_⟩
      rw [List.nil_append, List.nil_append, run_tok, hp]
      rfl
    · obtain ⟨a, k1, k2, k3, k4⟩ := entryEls_run h1 h2 h3 (printSpace s)
      have := joins_run o r ds z (run (printSpace s) y).2 hF.2.2 hz k3 k4
      generalize z ++ [El.tok (outTok r)] = z' at this ⊢
      rw [run_append]
      exact .inr ⟨a, _, k2, this, by dsimp only; rw [k1, hp]; rfl⟩

/-- From the opening to the closing delimiter. -/
theorem joined_run {o : Opts} {l r : Token} {hs : List ItemDoc} {d : ItemDoc} {ds : List ItemDoc}
    (hF : Formeds o (d :: ds)) (hd : d.arg.isHole = false) {g y z : List El}
    (hg : g = if hs.isEmpty then [] else [.space])
    (hsep : ∀ d ∈ hs, d.sep.isSome = true)
    (hy : EntryEls o d y) (hz : JoinEls o ds z) (s : PState) :
    ∃ out, (run s ([.tok (outTok l)] ++ ((hs.flatMap fun d => d.sep.toList.map outTok).map .tok ++
        (g ++ (y ++ (z ++ [.tok (outTok r)])))))).1 = pendingEls s ++ out ∧
      Joined o l (hs.flatMap fun d => d.sep.toList) d.arg d.sep (ds.map fun d => (d.arg, d.sep)) r out := by
  rcases hy with ⟨h1, -⟩ | ⟨h1, h2, h3⟩
  · rw [hd] at h1; cases h1
  rw [run_append, run_append, run_tok]
  dsimp only
  obtain ⟨k1, k2, k3⟩ := run_toks (hs.flatMap fun d => d.sep.toList.map outTok)
    { s with started := true, space := false, ind := 0, emptyLine := false } rfl rfl
  rw [k1]
  generalize (run { s with started := true, space := false, ind := 0, emptyLine := false }
    (List.map El.tok (hs.flatMap fun d => d.sep.toList.map outTok))).2 = s1 at k2 k3
  have hemp : (hs.flatMap fun d => d.sep.toList).isEmpty = hs.isEmpty := by
    cases hs with
    | nil => rfl
    | cons d hs =>
      have := hsep d (by simp)
      cases he : d.sep with
      | none => rw [he] at this; cases this
      | some t => simp [he]
  have h5 : (run s1 g).1 = [] ∧ pendingEls (run s1 g).2 =
      (if (hs.flatMap fun d => d.sep.toList).isEmpty then [] else [.blank [32]]) := by
    rw [hemp, hg]
    cases hs.isEmpty
    · simp only [Bool.false_eq_true, if_false]
      rw [run_single]
      refine ⟨rfl, ?_⟩
      unfold pendingEls at k3
      simp only [List.append_eq_nil_iff] at k3
      simp [printEl, printSpace, k2, pendingEls, k3.1]
    · exact ⟨rfl, k3⟩
  rw [run_append, h5.1]
  dsimp only
  have h5 := h5.2
  generalize (run s1 g).2 = s2 at h5
  obtain ⟨a, e1, e2, e3, e4⟩ := entryEls_run h1 h2 h3 s2
  have hj := joins_run o r ds z (run s2 y).2 hF.2.2 hz e3 e4
  generalize z ++ [El.tok (outTok r)] = z' at hj ⊢
  rw [run_append]
  dsimp only
  rw [e1]
  refine ⟨_, ?_, _, a, _, rfl, rfl, e2, hj⟩
  rw [h5]
  simp [List.map_flatMap, Function.comp_def]

end Verif.Format
