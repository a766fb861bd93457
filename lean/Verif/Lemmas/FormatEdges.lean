import Verif.Lemmas.FormatEmit
import Verif.Lemmas.FormatSkip
import Verif.Spec.Lines

/-!
# How layouts start and end
-/

namespace Verif.Format
open Verif.Syntax

/-- Instructions that may follow the last text of a node: postponed comments and line breaks. -/
def El.isTail : El → Bool
  | .suffix .. => true
  | .nl e _ => !e
  | _ => false

/-- The first instruction prints text. -/
def Begins (x : List El) : Prop := ∃ e r, x = e :: r ∧ e.isText = true

/-- Only postponed comments and line breaks follow the last text. -/
def Ends (x : List El) : Prop :=
  ∃ p e q, x = p ++ e :: q ∧ e.isText = true ∧ ∀ a ∈ q, a.isTail = true

/-- All layouts start with text. -/
def DBegins (d : Doc) : Prop := ∀ ns m i x, Lays ns m i d x → Begins x

/-- All layouts end with text, up to postponed comments and line breaks. -/
def DEnds (d : Doc) : Prop := ∀ ns m i x, Lays ns m i d x → Ends x

/-- Only postponed comments and line breaks. -/
def DTail (d : Doc) : Prop := ∀ ns m i x, Lays ns m i d x → ∀ a ∈ x, a.isTail = true

/-- Empty, or ends with text. -/
def DMay (d : Doc) : Prop := ∀ ns m i x, Lays ns m i d x → (∀ a ∈ x, a.isTail = true) ∨ Ends x

theorem Begins.append {x : List El} (h : Begins x) (y : List El) : Begins (x ++ y) := by
  obtain ⟨e, r, rfl, he⟩ := h
  exact ⟨e, r ++ y, rfl, he⟩

theorem Ends.right {y : List El} (h : Ends y) (x : List El) : Ends (x ++ y) := by
  obtain ⟨p, e, q, rfl, he, hq⟩ := h
  exact ⟨x ++ p, e, q, by simp, he, hq⟩

theorem Ends.tail {x y : List El} (h : Ends x) (hy : ∀ a ∈ y, a.isTail = true) : Ends (x ++ y) := by
  obtain ⟨p, e, q, rfl, he, hq⟩ := h
  refine ⟨p, e, q ++ y, by simp, he, ?_⟩
  intro a ha
  rcases List.mem_append.mp ha with ha | ha
  · exact hq a ha
  · exact hy a ha

theorem DBegins.left {a : Doc} (h : DBegins a) (b : Doc) : DBegins (a ⊹ b) := by
  rintro ns m i x ⟨y, z, rfl, hy, -⟩
  exact (h _ _ _ _ hy).append _

theorem DBegins.group {d : Doc} (h : DBegins d) (ex : Bool) : DBegins (.group ex d) := by
  rintro ns m i x ⟨m', -, hx⟩
  exact h _ _ _ _ hx

theorem DBegins.tokDoc (t : Token) : DBegins (tokDoc t) := by
  rintro ns m i x (rfl : x = _)
  exact ⟨_, _, rfl, rfl⟩

theorem DEnds.right {b : Doc} (h : DEnds b) (a : Doc) : DEnds (a ⊹ b) := by
  rintro ns m i x ⟨y, z, rfl, -, hz⟩
  exact (h _ _ _ _ hz).right _

theorem DEnds.tail {a b : Doc} (h : DEnds a) (hb : DTail b) : DEnds (a ⊹ b) := by
  rintro ns m i x ⟨y, z, rfl, hy, hz⟩
  exact (h _ _ _ _ hy).tail (hb _ _ _ _ hz)

theorem DEnds.may {a b : Doc} (h : DEnds a) (hb : DMay b) : DEnds (a ⊹ b) := by
  rintro ns m i x ⟨y, z, rfl, hy, hz⟩
  rcases hb _ _ _ _ hz with hz | hz
  · exact (h _ _ _ _ hy).tail hz
  · exact hz.right _

theorem DEnds.group {d : Doc} (h : DEnds d) (ex : Bool) : DEnds (.group ex d) := by
  rintro ns m i x ⟨m', -, hx⟩
  exact h _ _ _ _ hx

theorem DEnds.indent {d : Doc} (h : DEnds d) : DEnds (.indent d) :=
  fun ns m _ x hx => h ns m _ x hx

theorem DEnds.alt {a b : Doc} (ha : DEnds a) (hb : DEnds b) : DEnds (.alt a b) := by
  rintro ns m i x (hx | hx)
  · exact ha _ _ _ _ hx
  · exact hb _ _ _ _ hx

theorem DEnds.tokDoc (t : Token) : DEnds (tokDoc t) := by
  rintro ns m i x (rfl : x = _)
  exact ⟨[], _, [], rfl, rfl, by simp⟩

theorem DEnds.tok (t : Tok) : DEnds (.tok t) := by
  rintro ns m i x (rfl : x = _)
  exact ⟨[], _, [], rfl, rfl, by simp⟩

theorem DTail.nil : DTail .nil := by
  rintro ns m i x (rfl : x = _) a ha
  cases ha

theorem DTail.soft : DTail (.line .soft) := by
  rintro ns m i x (rfl : x = _) a ha
  simp only [layLine] at ha
  split at ha
  · cases ha
  · rw [List.mem_singleton.mp ha]; rfl

theorem DTail.hard : DTail (.line .hard) := by
  rintro ns m i x (rfl : x = _) a ha
  simp only [layLine] at ha
  rw [List.mem_singleton.mp ha]; rfl

theorem DTail.trailing (n : Nat) (cs : List Comment) : DTail (trailingDoc n cs) := by
  induction cs generalizing n with
  | nil => exact DTail.nil
  | cons c cs ih =>
    rintro ns m i x ⟨y, z, rfl, (rfl : y = _), hz⟩ a ha
    rcases List.mem_append.mp ha with ha | ha
    · rw [List.mem_singleton.mp ha]; rfl
    · exact ih _ _ _ _ _ hz a ha

theorem DTail.may {d : Doc} (h : DTail d) : DMay d := fun _ _ _ _ hx => .inl (h _ _ _ _ hx)

theorem DEnds.isMay {d : Doc} (h : DEnds d) : DMay d := fun _ _ _ _ hx => .inr (h _ _ _ _ hx)

theorem DMay.append {a b : Doc} (ha : DMay a) (hb : DMay b) : DMay (a ⊹ b) := by
  rintro ns m i x ⟨y, z, rfl, hy, hz⟩
  rcases hb _ _ _ _ hz with hz | hz
  · rcases ha _ _ _ _ hy with hy | hy
    · refine .inl fun a ha => ?_
      rcases List.mem_append.mp ha with ha | ha
      · exact hy a ha
      · exact hz a ha
    · exact .inr (hy.tail hz)
  · exact .inr (hz.right _)

theorem DEnds.danglingComments {cs : List Comment} (h : cs ≠ []) : DEnds (danglingComments cs) := by
  induction cs with
  | nil => exact absurd rfl h
  | cons c cs ih =>
    cases cs with
    | nil =>
      rintro ns m i x (rfl : x = _)
      exact ⟨[], _, [], rfl, rfl, by simp⟩
    | cons d cs => exact ((ih (by simp)).right _).right _

theorem DEnds.softBlock {d : Doc} (h : DEnds d) : DEnds (softBlock d) :=
  DEnds.tail (h.right _).indent DTail.soft

theorem DMay.danglingSoft (cs : List Comment) : DMay (danglingSoft cs) := by
  unfold Format.danglingSoft
  cases cs with
  | nil => exact DTail.nil.may
  | cons c cs => exact (((DEnds.danglingComments (by simp)).softBlock).group _).isMay

theorem DBegins.leading {d : Doc} (h : DBegins d) (cs : List Comment) :
    DBegins (leadingDoc cs ⊹ d) := by
  cases cs with
  | nil =>
    rintro ns m i x ⟨y, z, rfl, (rfl : y = _), hz⟩
    exact h _ _ _ _ hz
  | cons c cs =>
    refine DBegins.left (DBegins.left ?_ _) _
    rintro ns m i x (rfl : x = _)
    exact ⟨_, _, rfl, rfl⟩

theorem DBegins.node {d : Doc} (h : DBegins d) (a : Ann) (dg : Doc) : DBegins (nodeDoc a d dg) :=
  (h.left _).leading a.leading

theorem DEnds.node {d dg : Doc} (h : DEnds d) (hd : DMay dg) (a : Ann) :
    DEnds (nodeDoc a d dg) :=
  (h.may (hd.append (DTail.trailing 0 a.trailing).may)).right _

theorem Begins.rawEls {ts : List Token} (h : ts ≠ []) : Begins (rawEls ts) := by
  cases ts with
  | nil => exact absurd rfl h
  | cons t ts =>
    obtain ⟨x, hx⟩ := rawEls_cons t ts
    exact ⟨_, x, hx, rfl⟩

theorem Ends.rawEls {ts : List Token} (h : ts ≠ []) : Ends (rawEls ts) := by
  induction ts with
  | nil => exact absurd rfl h
  | cons t ts ih =>
    cases ts with
    | nil => exact ⟨[], _, [], rfl, rfl, by simp⟩
    | cons u ts =>
      rw [Format.rawEls]
      exact ((ih (by simp)).right _).right [_]

theorem DBegins.verbatim {ts : List Token} (h : ts ≠ []) (a : Ann) :
    DBegins (verbatimDoc a ts) := by
  refine DBegins.leading (DBegins.left ?_ _) _
  rintro ns m i x (rfl : x = _)
  exact Begins.rawEls h

theorem DEnds.verbatim {ts : List Token} (h : ts ≠ []) (a : Ann) : DEnds (verbatimDoc a ts) := by
  refine DEnds.right (DEnds.tail ?_ (DTail.trailing _ _)) _
  rintro ns m i x (rfl : x = _)
  exact Ends.rawEls h

theorem DBegins.wrap {d : Doc} (h : DBegins d) (o : Opts) (cx : Cx) (e : Expr) :
    DBegins (wrapDoc o cx e d) := by
  unfold wrapDoc
  split
  · exact h.left _
  · split
    · exact DBegins.verbatim (tokens_ne_nil e) _
    · exact h.node _ _

theorem DEnds.wrap {d : Doc} (h : DEnds d) (o : Opts) (cx : Cx) (e : Expr) :
    DEnds (wrapDoc o cx e d) := by
  unfold wrapDoc
  split
  · exact h.tail (DTail.trailing _ _)
  · split
    · exact DEnds.verbatim (tokens_ne_nil e) _
    · refine h.node ?_ _
      split
      · exact DTail.nil.may
      · exact DMay.danglingSoft _

theorem DEnds.body {d : Doc} (h : DEnds d) (as force : Bool) : DEnds (bodyDoc as force d) := by
  unfold bodyDoc
  split
  · exact h
  · unfold braceDoc
    split
    · exact ((DEnds.tok _).right _).right _
    · refine DEnds.right (DEnds.may h.softBlock ?_) _
      rintro ns m i x (⟨-, hx⟩ | ⟨-, rfl⟩)
      · exact .inr (DEnds.tok _ _ _ _ _ hx)
      · exact .inl (by simp)

theorem bracedDoc_begins (cx : Cx) (a : Ann) (l : Token) (es : Exprs) (d : Doc) (r : Token) :
    DBegins (bracedDoc cx a l es d r) := by
  unfold bracedDoc
  split
  · exact (DBegins.tokDoc l).left _
  · split
    · exact (((DBegins.tokDoc l).left _).leading _).group _
    · exact (DBegins.tokDoc l).left _

theorem bracedDoc_ends (cx : Cx) (a : Ann) (l : Token) (es : Exprs) (d : Doc) (r : Token) :
    DEnds (bracedDoc cx a l es d r) := by
  unfold bracedDoc
  split
  · exact ((DEnds.tokDoc r).right _).right _
  · split
    · refine DEnds.group ?_ _
      exact ((((((DEnds.tokDoc r).tail (DTail.trailing _ _)).right _).right _).right _).right _).right _
    · exact ((DEnds.tokDoc r).right _).right _

theorem argsDoc_ends (o : Opts) (k : CallKind) (aa : Ann) (l : Token) (items : Items)
    (ds : List ItemDoc) (r : Token) : DEnds (argsDoc o k aa l items ds r) := by
  have hb : ∀ ex h a, DEnds (brokenOut ex l h a r) := by
    intro ex h a
    exact ((((((DEnds.tokDoc r).right _).right _).right _).right _)).group _
  unfold argsDoc
  split
  · exact ((DEnds.tokDoc r).right _).right _
  · split
    · exact ((DEnds.tokDoc r).right _).right _
    · dsimp only
      split
      · exact hb _ _ _
      · split
        · exact hb _ _ _
        · split
          · unfold groupedArgs
            exact ((((DEnds.tokDoc r).right _).right _).group _).alt
              (((((DEnds.tokDoc r).right _).right _).group _).alt (hb _ _ _))
          · exact hb _ _ _

theorem tableDoc_ends (o : Opts) (aa : Ann) (l : Token) (items : Items) (ds : List ItemDoc)
    (r : Token) : DEnds (tableDoc o aa l items ds r) := by
  unfold tableDoc
  split
  · exact argsDoc_ends _ _ _ _ _ _ _
  · exact ((((DEnds.tokDoc r).right _).right _).group _).alt (DEnds.verbatim (by simp) _)

theorem fmt_begins (o : Opts) : ∀ (e : Expr) (cx : Cx), DBegins (fmt o cx e)
  | .atom .., cx => by rw [fmt]; exact (DBegins.tokDoc _).wrap _ _ _
  | .str a p c l, cx => by
    cases c <;> simp only [fmt] <;> exact ((DBegins.tokDoc _).left _).wrap _ _ _
  | .paren .., cx => by rw [fmt]; exact ((DBegins.tokDoc _).left _).wrap _ _ _
  | .braced .., cx => by rw [fmt]; exact (bracedDoc_begins _ _ _ _ _ _).wrap _ _ _
  | .unary .., cx => by rw [fmt]; exact ((DBegins.tokDoc _).left _).wrap _ _ _
  | .binary a x op y, cx => by
    have hx := fmt_begins o x
    rw [fmt]
    refine DBegins.wrap ?_ _ _ _
    split
    · exact ((hx _).left _).group _
    · split
      · exact ((hx _).left _).group _
      · split
        · dsimp only
          split
          · exact (hx _).left _
          · exact ((hx _).left _).group _
        · exact ((hx _).left _).group _
  | .sel a k x op y, cx => by
    rw [fmt]
    exact (((fmt_begins o x _).left _).group _).wrap _ _ _
  | .call a k f aa l items r, cx => by
    rw [fmt]
    exact ((fmt_begins o f _).left _).wrap _ _ _
  | .func .., cx => by rw [fmt]; exact (((DBegins.tokDoc _).left _).group _).wrap _ _ _
  | .ite .., cx => by rw [fmt]; exact (((DBegins.tokDoc _).left _).group _).wrap _ _ _
  | .itee .., cx => by rw [fmt]; exact (((DBegins.tokDoc _).left _).group _).wrap _ _ _
  | .for_ .., cx => by rw [fmt]; exact (((DBegins.tokDoc _).left _).group _).wrap _ _ _
  | .while_ .., cx => by rw [fmt]; exact (((DBegins.tokDoc _).left _).group _).wrap _ _ _
  | .repeat_ .., cx => by rw [fmt]; exact (((DBegins.tokDoc _).left _).group _).wrap _ _ _

theorem fmt_ends (o : Opts) : ∀ (e : Expr) (cx : Cx), DEnds (fmt o cx e)
  | .atom .., cx => by rw [fmt]; exact (DEnds.tokDoc _).wrap _ _ _
  | .str a p c l, cx => by
    cases c <;> simp only [fmt] <;> exact (((DEnds.tokDoc _).right _).right _).wrap _ _ _
  | .paren .., cx => by rw [fmt]; exact (((DEnds.tokDoc _).right _).right _).wrap _ _ _
  | .braced .., cx => by rw [fmt]; exact (bracedDoc_ends _ _ _ _ _ _).wrap _ _ _
  | .unary a op e, cx => by
    rw [fmt]
    refine DEnds.wrap (DEnds.right (DEnds.right ?_ _) _) _ _ _
    split
    · exact (fmt_ends o e _).softBlock
    · exact fmt_ends o e _
  | .binary a x op y, cx => by
    have hy := fmt_ends o y
    rw [fmt]
    refine DEnds.wrap ?_ _ _ _
    split
    · exact (((hy _).right _).right _).group _
    · split
      · refine DEnds.group (DEnds.right (DEnds.right (DEnds.right ?_ _) _) _) _
        dsimp only
        split
        · exact ((hy _).right _).indent
        · exact (hy _).right _
      · split
        · dsimp only
          have hp : ∀ d : Doc, DEnds (d ⊹ (if cx.aligned then
              chainPiece op y (fmt o (opCx cx op.kind) y)
              else .indent (chainPiece op y (fmt o (opCx cx op.kind) y)))) := by
            intro d
            refine DEnds.right ?_ _
            have : DEnds (chainPiece op y (fmt o (opCx cx op.kind) y)) :=
              (((hy _).right _).right _).right _
            split
            · exact this
            · exact this.indent
          split
          · exact hp _
          · exact (hp _).group _
        · exact ((((hy _).right _).indent.right _).right _).right _ |>.group _
  | .sel a k x op y, cx => by
    rw [fmt]
    exact ((((fmt_ends o y _).right _).right _).group _).wrap _ _ _
  | .call a k f aa l items r, cx => by
    rw [fmt]
    refine DEnds.wrap (DEnds.right (DEnds.node ?_ DTail.nil.may _) _) _ _ _
    split
    · exact tableDoc_ends _ _ _ _ _ _
    · exact argsDoc_ends _ _ _ _ _ _ _
  | .func a kw pa l items r b, cx => by
    rw [fmt]
    exact ((((((fmt_ends o b _).body _ _).right _).right _).right _).group _).wrap _ _ _
  | .ite a kw l c r t, cx => by
    rw [fmt]
    refine DEnds.wrap (DEnds.group ?_ _) _ _ _
    exact ((((((((fmt_ends o t _).body _ _).right _).right _).right _).right _).right _).right _)
  | .itee a kw l c r t ea el e, cx => by
    rw [fmt]
    refine DEnds.wrap (DEnds.group ?_ _) _ _ _
    refine DEnds.right (DEnds.right (DEnds.right (DEnds.right (DEnds.right (DEnds.right
      (DEnds.right (DEnds.right ?_ _) _) _) _) _) _) _) _
    exact ((((fmt_ends o e _).body _ _).right _).right _).node (DMay.danglingSoft _) _
  | .for_ a kw l v i s r b, cx => by
    rw [fmt]
    refine DEnds.wrap (DEnds.group ?_ _) _ _ _
    iterate 10 refine DEnds.right ?_ _
    exact (fmt_ends o b _).body _ _
  | .while_ a kw l c r b, cx => by
    rw [fmt]
    refine DEnds.wrap (DEnds.group ?_ _) _ _ _
    iterate 6 refine DEnds.right ?_ _
    exact (fmt_ends o b _).body _ _
  | .repeat_ a kw b, cx => by
    rw [fmt]
    refine DEnds.wrap (DEnds.group ?_ _) _ _ _
    iterate 2 refine DEnds.right ?_ _
    exact (fmt_ends o b _).body _ _

end Verif.Format
