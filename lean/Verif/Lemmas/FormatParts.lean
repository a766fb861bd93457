import Verif.Lemmas.FormatCalm
import Verif.Lemmas.FormatSkip
import Verif.Lemmas.FormatLines

/-!
# Layouts contain layouts of the parts
-/

namespace Verif.Format
open Verif.Syntax

/-- Every layout of the document contains a layout of a part with `P`. -/
def Always (P : Doc → Prop) : Doc → Prop
  | .cat a b => P (.cat a b) ∨ Always P a ∨ Always P b
  | .indent d => P (.indent d) ∨ Always P d
  | .group ex d => P (.group ex d) ∨ Always P d
  | .noSoft d => P (.noSoft d) ∨ Always P d
  | .alt a b => P (.alt a b) ∨ (Always P a ∧ Always P b)
  | d => P d

variable {P : Doc → Prop}

theorem Always.self {d : Doc} (h : P d) : Always P d := by
  cases d <;> first | exact h | exact .inl h

theorem Always.left {a : Doc} (h : Always P a) (b : Doc) : Always P (a ⊹ b) := .inr (.inl h)
theorem Always.right {b : Doc} (h : Always P b) (a : Doc) : Always P (a ⊹ b) := .inr (.inr h)
theorem Always.indent {d : Doc} (h : Always P d) : Always P (.indent d) := .inr h
theorem Always.group {d : Doc} (h : Always P d) (ex : Bool) : Always P (.group ex d) := .inr h
theorem Always.noSoft {d : Doc} (h : Always P d) : Always P (.noSoft d) := .inr h
theorem Always.alt {a b : Doc} (ha : Always P a) (hb : Always P b) : Always P (.alt a b) := .inr ⟨ha, hb⟩

/-- Parts that break make the document break. -/
theorem Always.willBreak {d : Doc} (hP : ∀ d', P d' → d'.willBreak = true) (h : Always P d) :
    d.willBreak = true := by
  induction d with
  | cat a b iha ihb =>
    rcases h with h | h | h
    · exact hP _ h
    · simp [Doc.willBreak, iha h]
    · simp [Doc.willBreak, ihb h]
  | indent d ih => exact h.elim (hP _) (fun h => ih h)
  | group ex d ih => exact h.elim (hP _) (fun h => by simp [Doc.willBreak, ih h])
  | noSoft d ih => exact h.elim (hP _) (fun h => ih h)
  | alt a b iha ihb => exact h.elim (hP _) (fun h => by simp [Doc.willBreak, iha h.1, ihb h.2])
  | _ => exact hP _ h

/-- Parts of parts. -/
theorem Always.trans {Q : Doc → Prop} {d : Doc} (h : Always P d) (hq : ∀ d', P d' → Always Q d') :
    Always Q d := by
  induction d with
  | cat a b iha ihb =>
    rcases h with h | h | h
    · exact hq _ h
    · exact (iha h).left _
    · exact (ihb h).right _
  | indent d ih => exact h.elim (hq _) (fun h => (ih h).indent)
  | group ex d ih => exact h.elim (hq _) (fun h => (ih h).group _)
  | noSoft d ih => exact h.elim (hq _) (fun h => (ih h).noSoft)
  | alt a b iha ihb => exact h.elim (hq _) (fun h => (iha h.1).alt (ihb h.2))
  | _ => exact hq _ h

/-- The part in a layout. -/
theorem Always.lays {d : Doc} (h : Always P d) : ∀ {ns : Bool} {m : Mode} {i : Nat} {x : List El},
    Lays ns m i d x → ∃ d' ns' m' i' y, P d' ∧ Lays ns' m' i' d' y ∧ y <:+: x := by
  have self : ∀ d, P d → ∀ {ns : Bool} {m : Mode} {i : Nat} {x : List El}, Lays ns m i d x →
      ∃ d' ns' m' i' y, P d' ∧ Lays ns' m' i' d' y ∧ y <:+: x :=
    fun d hd ns m i x hx => ⟨d, ns, m, i, x, hd, hx, [], [], by simp⟩
  induction d with
  | cat a b iha ihb =>
    intro ns m i x hx
    rcases h with h | h | h
    · exact self _ h hx
    · obtain ⟨u, v, rfl, hu, -⟩ := hx
      obtain ⟨d', ns', m', i', y, h1, h2, h3⟩ := iha h hu
      exact ⟨d', ns', m', i', y, h1, h2, infix_left _ h3⟩
    · obtain ⟨u, v, rfl, -, hv⟩ := hx
      obtain ⟨d', ns', m', i', y, h1, h2, h3⟩ := ihb h hv
      exact ⟨d', ns', m', i', y, h1, h2, infix_right _ h3⟩
  | indent d ih =>
    intro ns m i x hx
    rcases h with h | h
    · exact self _ h hx
    · exact ih h hx
  | group ex d ih =>
    intro ns m i x hx
    rcases h with h | h
    · exact self _ h hx
    · obtain ⟨m', -, hx⟩ := hx
      exact ih h hx
  | noSoft d ih =>
    intro ns m i x hx
    rcases h with h | h
    · exact self _ h hx
    · obtain ⟨m', hx, -⟩ := hx
      exact ih h hx
  | alt a b iha ihb =>
    intro ns m i x hx
    rcases h with h | h
    · exact self _ h hx
    · rcases hx with hx | hx
      · exact iha h.1 hx
      · exact ihb h.2 hx
  | _ => intro _ _ _ _ hx; exact self _ h hx

/-- Parts that break are not in documents without soft line breaks. -/
theorem Always.lays_soft {d : Doc} (hP : ∀ d', P d' → d'.willBreak = true) (h : Always P d) :
    ∀ {m : Mode} {i : Nat} {x : List El},
    Lays false m i d x → ∃ d' m' i' y, P d' ∧ Lays false m' i' d' y ∧ y <:+: x := by
  have self : ∀ d, P d → ∀ {m : Mode} {i : Nat} {x : List El}, Lays false m i d x →
      ∃ d' m' i' y, P d' ∧ Lays false m' i' d' y ∧ y <:+: x :=
    fun d hd m i x hx => ⟨d, m, i, x, hd, hx, [], [], by simp⟩
  induction d with
  | cat a b iha ihb =>
    intro m i x hx
    rcases h with h | h | h
    · exact self _ h hx
    · obtain ⟨u, v, rfl, hu, -⟩ := hx
      obtain ⟨d', m', i', y, h1, h2, h3⟩ := iha h hu
      exact ⟨d', m', i', y, h1, h2, infix_left _ h3⟩
    · obtain ⟨u, v, rfl, -, hv⟩ := hx
      obtain ⟨d', m', i', y, h1, h2, h3⟩ := ihb h hv
      exact ⟨d', m', i', y, h1, h2, infix_right _ h3⟩
  | indent d ih =>
    intro m i x hx
    rcases h with h | h
    · exact self _ h hx
    · exact ih h hx
  | group ex d ih =>
    intro m i x hx
    rcases h with h | h
    · exact self _ h hx
    · obtain ⟨m', -, hx⟩ := hx
      exact ih h hx
  | noSoft d ih =>
    intro m i x hx
    rcases h with h | h
    · exact self _ h hx
    · obtain ⟨m', -, -, this⟩ := hx
      rw [h.willBreak hP] at this
      cases this
  | alt a b iha ihb =>
    intro m i x hx
    rcases h with h | h
    · exact self _ h hx
    · rcases hx with hx | hx
      · exact iha h.1 hx
      · exact ihb h.2 hx
  | _ => intro _ _ _ hx; exact self _ h hx

theorem Always.softBlock {d : Doc} (h : Always P d) : Always P (softBlock d) :=
  ((h.right _).indent).left _
theorem Always.hardBlock {d : Doc} (h : Always P d) : Always P (hardBlock d) :=
  ((h.right _).indent).left _

theorem Always.node {d : Doc} (h : Always P d) (a : Ann) (dg : Doc) : Always P (nodeDoc a d dg) :=
  (h.left _).right _

theorem Always.body {d : Doc} (h : Always P d) (as force : Bool) : Always P (bodyDoc as force d) := by
  unfold bodyDoc braceDoc
  split
  · exact h
  · split
    · exact ((h.hardBlock).left _).right _
    · exact ((h.softBlock).left _).right _

/-- A part is in the entry, grouped or not. -/
def AlwaysI (P : Doc → Prop) (d : ItemDoc) : Prop := Always P d.doc ∧ Always P d.grouped

theorem AlwaysI.full {d : ItemDoc} (h : AlwaysI P d) : Always P d.full := h.1.left _

theorem always_argsTail {ds : List ItemDoc} {d : ItemDoc} (hd : d ∈ ds) (h : Always P d.doc) :
    Always P (argsTail ds) := by
  induction ds with
  | nil => cases hd
  | cons x xs ih =>
    rcases List.mem_cons.mp hd with rfl | hd
    · exact ((h.left _).left _).right _
    · exact ((ih hd).right _).right _

theorem always_argsJoin {ds : List ItemDoc} {d : ItemDoc} (hd : d ∈ ds) (h : Always P d.doc) :
    Always P (argsJoin ds) := by
  cases ds with
  | nil => cases hd
  | cons x xs =>
    rcases List.mem_cons.mp hd with rfl | hd
    · exact (h.left _).left _
    · exact (always_argsTail hd h).right _

theorem always_paramsTail {ds : List ItemDoc} {d : ItemDoc} (hd : d ∈ ds) (h : Always P d.doc) :
    Always P (paramsTail ds) := by
  induction ds with
  | nil => cases hd
  | cons x xs ih =>
    rcases List.mem_cons.mp hd with rfl | hd
    · exact ((h.left _).left _).right _
    · exact ((ih hd).right _).right _

theorem always_paramsJoin {ds : List ItemDoc} {d : ItemDoc} (hd : d ∈ ds) (h : Always P d.doc) :
    Always P (paramsJoin ds) := by
  cases ds with
  | nil => cases hd
  | cons x xs =>
    rcases List.mem_cons.mp hd with rfl | hd
    · exact (h.left _).left _
    · exact (always_paramsTail hd h).right _

theorem always_catAll {ds : List ItemDoc} {d : ItemDoc} (hd : d ∈ ds) (h : Always P d.doc) :
    Always P (catAll (ds.map ItemDoc.full)) := by
  induction ds with
  | nil => cases hd
  | cons x xs ih =>
    rcases List.mem_cons.mp hd with rfl | hd
    · exact (h.left _).left _
    · exact (ih hd).right _

theorem always_groupedJoin {ex single : Bool} {ds : List ItemDoc} {d : ItemDoc} (hd : d ∈ ds)
    (h : AlwaysI P d) : Always P (groupedJoin ex single ds) := by
  induction ds with
  | nil => cases hd
  | cons x xs ih =>
    cases xs with
    | nil =>
      simp only [List.mem_singleton] at hd
      subst hd
      have : Always P ((if single then d.doc else d.grouped) ⊹ d.sepDoc) := by
        refine Always.left ?_ _
        split
        · exact h.1
        · exact h.2
      unfold groupedJoin
      dsimp only
      split
      · exact this.group _
      · exact this
    | cons y ys =>
      rcases List.mem_cons.mp hd with rfl | hd
      · exact h.full.left _
      · exact ((ih hd).right _).right _

theorem always_testJoin {ds : List ItemDoc} {d : ItemDoc} (hd : d ∈ ds) (h : Always P d.doc) :
    Always P (testJoin ds) := by
  induction ds with
  | nil => cases hd
  | cons x xs ih =>
    cases xs with
    | nil =>
      simp only [List.mem_singleton] at hd
      subst hd
      exact h.left _
    | cons y ys =>
      rcases List.mem_cons.mp hd with rfl | hd
      · exact (h.left _).left _
      · exact ((ih hd).right _).right _

theorem always_brokenOut {ex : Bool} {l r : Token} {holes args : List ItemDoc} {d : ItemDoc}
    (hd : d ∈ holes ∨ d ∈ args) (h : Always P d.doc) : Always P (brokenOut ex l holes args r) := by
  unfold brokenOut
  refine Always.group (Always.right ?_ _) _
  rcases hd with hd | hd
  · exact (always_catAll hd h).left _
  · refine Always.right (Always.right (Always.left ?_ _) _) _
    split
    · cases args with
      | nil => cases hd
      | cons x xs => simp_all
    · split
      · exact always_argsJoin hd h
      · exact (always_argsJoin hd h).softBlock

theorem always_groupedArgs {l r : Token} {holes args : List ItemDoc} {d : ItemDoc}
    (hd : d ∈ holes ∨ d ∈ args) (h : AlwaysI P d) : Always P (groupedArgs l holes args r) := by
  have key : ∀ ex, Always P ((tokDoc l ⊹ catAll (holes.map ItemDoc.full) ⊹
      maybeSpace (!holes.isEmpty && !args.isEmpty)) ⊹
      groupedJoin ex (args.length == 1) args ⊹ tokDoc r) := by
    intro ex
    rcases hd with hd | hd
    · exact (((always_catAll hd h.1).left _).right _).left _
    · exact ((always_groupedJoin hd h).left _).right _
  exact Always.alt ((key false).group _) (Always.alt ((key true).group _) (always_brokenOut hd h.1))

theorem always_argsDoc {o : Opts} {k : CallKind} {aa : Ann} {l r : Token} {items : Items}
    {ds : List ItemDoc} {d : ItemDoc} (hd : d ∈ ds) (h : AlwaysI P d) :
    Always P (argsDoc o k aa l items ds r) := by
  unfold argsDoc
  split
  · cases ds with
    | nil => cases hd
    | cons x xs => simp_all
  split
  · exact ((always_testJoin hd h.1).left _).right _
  · dsimp only
    have hd' := mem_take_drop (p := ItemDoc.isHole) hd
    split
    · exact always_brokenOut hd' h.1
    split
    · exact always_brokenOut hd' h.1
    split
    · exact always_groupedArgs hd' h
    · exact always_brokenOut hd' h.1

theorem always_paramsDoc {o : Opts} {pa : Ann} {l r : Token}
    {ds : List ItemDoc} {d : ItemDoc} (hd : d ∈ ds) (h : Always P d.doc) :
    Always P (paramsDoc o pa l ds r) := by
  unfold paramsDoc
  refine Always.node ?_ _ _
  cases ds with
  | nil => cases hd
  | cons x xs => exact (Always.right (Always.left (always_paramsJoin hd h).softBlock _) _).group _


/-! ## Expressions -/

/-- The context of expressions that are not arguments of a table; braces are not forbidden. -/
def Usual (cx : Cx) : Prop := cx.table = none ∧ (cx.braces = none ∨ cx.braces = some true)

/-- The document of the expression; `R`: the parts of the file. If it is printed as inner part of a chain,
it is the left operand of a chain. -/
def IsDoc (o : Opts) (R : Expr → Prop) (b : Expr) (d : Doc) : Prop :=
  b.ordinary o = true ∧ ∃ cx, Usual cx ∧ d = fmt o cx b ∧
    (cx.chain = true → ∃ a op y, isChainOp op.kind = true ∧ R (.binary a b op y))

theorem always_self {o : Opts} {R : Expr → Prop} {b : Expr} (ho : b.ordinary o = true) (cx : Cx)
    (ht : Usual cx)
    (hc : cx.chain = true → ∃ a op y, isChainOp op.kind = true ∧ R (.binary a b op y)) :
    Always (IsDoc o R b) (fmt o cx b) := Always.self ⟨ho, cx, ht, rfl, hc⟩

theorem always_wrap {o : Opts} {cx : Cx} {e : Expr} {d : Doc} (h : Always P d)
    (ho : e.ordinary o = true) : Always P (wrapDoc o cx e d) := by
  unfold wrapDoc
  split
  · exact h.left _
  · rw [ordinary_suppressed ho, if_neg (by decide)]
    exact h.node _ _

theorem always_argDoc {o : Opts} {dir : Bool} {x : Arg} {d : Doc} (h : Always P d)
    (ho : x.ann.ordinary o = true) : Always P (argDoc o dir x d) := by
  unfold argDoc
  rw [ordinary_dir ho dir (.inl rfl), if_neg (by decide)]
  exact h.node _ _

theorem ordinary_argAnn {o : Opts} {x : Arg} (h : x.ordinary o = true) : x.ann.ordinary o = true := by
  cases x <;> simp_all [Arg.ordinary, Arg.ann]

theorem curlies_none {es : Exprs} (h : curlies es = false) (inArg : Bool) :
    curlyCurly inArg es = none := by
  unfold curlyCurly
  split
  · simp [curlies] at h
  · rfl

mutual
theorem always_fmt (o : Opts) (R : Expr → Prop) (b : Expr) : ∀ (e : Expr) (cx : Cx), Usual cx →
    (∀ e', Within e' e → R e') →
    (cx.chain = true → ∃ a op y, isChainOp op.kind = true ∧ R (.binary a e op y)) →
    e.ordinary o = true → Within b e → Always (IsDoc o R b) (fmt o cx e)
  | .atom a k t, cx, ht, hR, hc, ho, h => by rw [Within] at h; subst h; exact always_self ho cx ht hc
  | .str a p c l, cx, ht, hR, hc, ho, h => by rw [Within] at h; subst h; exact always_self ho cx ht hc
  | .paren a l e r, cx, ht, hR, hc, ho, h => by
    rw [Within] at h
    rcases h with rfl | h
    · exact always_self ho cx ht hc
    rw [fmt]
    refine always_wrap ?_ ho
    simp only [Expr.ordinary, Bool.and_eq_true] at ho
    have := always_fmt o R b e (bodyCx cx) ⟨rfl, .inl rfl⟩ (fun _ h => hR _ (by simp [Within, h])) (fun h => by cases h) ho.2 h
    refine Always.right (Always.left ?_ _) _
    split
    · exact this.hardBlock
    · exact this
  | .braced a l es r, cx, ht, hR, hc, ho, h => by
    rw [Within] at h
    rcases h with rfl | ⟨hc, h⟩
    · exact always_self ho cx ht hc
    rw [fmt]
    refine always_wrap ?_ ho
    simp only [Expr.ordinary, Bool.and_eq_true] at ho
    have := always_fmts o R b es cx false true (fun _ h => hR _ (by simp [Within, h, hc])) ho.2 h
    unfold bracedDoc
    split
    · rw [Withins] at h; exact h.elim
    · rw [curlies_none hc]
      exact (this.hardBlock.left _).right _
  | .unary a p e, cx, ht, hR, hc, ho, h => by
    rw [Within] at h
    rcases h with rfl | h
    · exact always_self ho cx ht hc
    rw [fmt]
    refine always_wrap ?_ ho
    simp only [Expr.ordinary, Bool.and_eq_true] at ho
    have := always_fmt o R b e (if p.kind = .wat then bodyCx cx else plainCx cx) (by split <;> exact ⟨rfl, .inl rfl⟩)
      (fun _ h => hR _ (by simp [Within, h])) (fun h => by split at h <;> cases h) ho.2 h
    refine Always.right (Always.right ?_ _) _
    split
    · exact this.softBlock
    · exact this
  | .binary a x p y, cx, ht, hR, hc, ho, h => by
    rw [Within] at h
    rcases h with rfl | h
    · exact always_self ho cx ht hc
    have hx : ∀ cx', Usual cx' → (cx'.chain = true → isChainOp p.kind = true) → Within b x →
        Always (IsDoc o R b) (fmt o cx' x) := by
      intro cx' h1 h3 h2
      simp only [Expr.ordinary, Bool.and_eq_true] at ho
      exact always_fmt o R b x cx' h1 (fun _ h => hR _ (by simp [Within, h]))
        (fun h => ⟨a, p, y, h3 h, hR _ (by simp [Within])⟩) ho.1.2 h2
    have hy : ∀ cx', Usual cx' → cx'.chain = false → Within b y →
        Always (IsDoc o R b) (fmt o cx' y) := by
      intro cx' h1 h3 h2
      simp only [Expr.ordinary, Bool.and_eq_true] at ho
      exact always_fmt o R b y cx' h1 (fun _ h => hR _ (by simp [Within, h]))
        (fun h => by rw [h3] at h; cases h) ho.2 h2
    have hd : hasDirective o cx.dir a .table = false := by
      simp only [Expr.ordinary, Bool.and_eq_true] at ho
      exact ordinary_dir ho.1.1 _ (.inr rfl)
    rw [fmt]
    refine always_wrap ?_ ho
    split
    · refine Always.group ?_ _
      rcases h with h | h
      · exact (hx _ ⟨rfl, .inl rfl⟩ (fun h => by cases h) h).left _
      · exact ((hy _ ⟨rfl, .inl rfl⟩ rfl h).right _).right _
    · split
      · dsimp only
        refine Always.group ?_ _
        rcases h with h | h
        · exact (hx _ ⟨rfl, .inl rfl⟩ (fun h => by cases h) h).left _
        · refine Always.right (Always.right (Always.right ?_ _) _) _
          have := hy { opCx cx p.kind with
            aligned := assignBreak o p.kind y,
            table := if hasDirective o cx.dir a .table then some true else none }
            (by rw [hd]; exact ⟨rfl, .inl rfl⟩) rfl h
          split
          · exact (this.right _).indent
          · exact this.right _
      · split
        · dsimp only
          have key : ∀ xd : Doc, (Within b x → Always (IsDoc o R b) xd) →
              Always (IsDoc o R b) (xd ⊹ (if cx.aligned then
              chainPiece p y (fmt o (opCx cx p.kind) y)
              else .indent (chainPiece p y (fmt o (opCx cx p.kind) y)))) := by
            intro xd hxd
            rcases h with h | h
            · exact (hxd h).left _
            · refine Always.right ?_ _
              have : Always (IsDoc o R b) (chainPiece p y (fmt o (opCx cx p.kind) y)) :=
                (((hy _ ⟨rfl, .inl rfl⟩ rfl h).right _).right _).right _
              split
              · exact this
              · exact this.indent
          split
          · exact key _ (hx _ ⟨rfl, .inl rfl⟩ (fun _ => by assumption))
          · exact (key _ (hx _ ⟨rfl, .inl rfl⟩ (fun _ => by assumption))).group _
        · refine Always.group ?_ _
          rcases h with h | h
          · exact (hx _ ⟨rfl, .inl rfl⟩ (fun h => by cases h) h).left _
          · exact (((hy _ ⟨rfl, .inl rfl⟩ rfl h).right _).indent.right _).right _ |>.right _
  | .sel a k x p y, cx, ht, hR, hc, ho, h => by
    rw [Within] at h
    rcases h with rfl | h
    · exact always_self ho cx ht hc
    rw [fmt]
    refine always_wrap ?_ ho
    simp only [Expr.ordinary, Bool.and_eq_true] at ho
    refine Always.group ?_ _
    rcases h with h | h
    · exact (always_fmt o R b x _ ⟨rfl, .inl rfl⟩ (fun _ h => hR _ (by simp [Within, h])) (fun h => by cases h) ho.1.2 h).left _
    · exact ((always_fmt o R b y _ ⟨rfl, .inl rfl⟩ (fun _ h => hR _ (by simp [Within, h])) (fun h => by cases h) ho.2 h).right _).right _
  | .call a k f aa l items r, cx, ht, hR, hc, ho, h => by
    rw [Within] at h
    rcases h with rfl | h
    · exact always_self ho cx ht hc
    rw [fmt]
    refine always_wrap ?_ ho
    simp only [Expr.ordinary, Bool.and_eq_true, Bool.not_eq_true'] at ho
    rcases h with h | h
    · exact (always_fmt o R b f _ ⟨rfl, .inl rfl⟩ (fun _ h => hR _ (by simp [Within, h])) (fun h => by cases h) ho.1.2 h).left _
    · refine Always.right (Always.node ?_ _ _) _
      have hn : ¬ (k = .call ∧
          cx.table.getD (hasDirective o cx.dir a .table || inSetting o.table f) = true) := by
        rw [ht.1, Option.getD_none, ordinary_dir ho.1.1.1 _ (.inr rfl),
          (listed_setting ho.1.1.2).2]
        rintro ⟨-, h⟩
        cases h
      rw [if_neg hn]
      obtain ⟨d, hd, hQ⟩ := always_items o R b items { inArg := true } true ⟨rfl, .inl rfl⟩ rfl (fun _ h => hR _ (by simp [Within, h])) ho.2 h
      exact always_argsDoc hd hQ
  | .func a kw pa l items r e, cx, ht, hR, hc, ho, h => by
    rw [Within] at h
    rcases h with rfl | h
    · exact always_self ho cx ht hc
    rw [fmt]
    refine always_wrap ?_ ho
    simp only [Expr.ordinary, Bool.and_eq_true] at ho
    refine Always.group (Always.right ?_ _) _
    rcases h with h | h
    · refine Always.left ?_ _
      obtain ⟨d, hd, hQ⟩ := always_items o R b items (plainCx cx) false ⟨rfl, .inl rfl⟩ rfl (fun _ h => hR _ (by simp [Within, h])) ho.1.2 h
      have := always_paramsDoc (o := o) (pa := pa) (l := l) (r := r) hd hQ.1
      split
      · exact this.noSoft
      · exact this
    · exact (((always_fmt o R b e _ ⟨rfl, .inl rfl⟩ (fun _ h => hR _ (by simp [Within, h])) (fun h => by cases h) ho.2 h).body _ _).right _).right _
  | .ite a kw l c r t, cx, ht, hR, hc, ho, h => by
    rw [Within] at h
    rcases h with rfl | h
    · exact always_self ho cx ht hc
    rw [fmt]
    refine always_wrap ?_ ho
    simp only [Expr.ordinary, Bool.and_eq_true] at ho
    refine Always.group (Always.right (Always.right (Always.right ?_ _) _) _) _
    rcases h with h | h
    · exact (((always_fmt o R b c _ ⟨rfl, .inl rfl⟩ (fun _ h => hR _ (by simp [Within, h])) (fun h => by cases h) ho.1.2 h).softBlock).group _).left _
    · exact ((((always_fmt o R b t _ ⟨rfl, .inl rfl⟩ (fun _ h => hR _ (by simp [Within, h])) (fun h => by cases h) ho.2 h).body _ _).right _).right _).right _
  | .itee a kw l c r t ea el e, cx, ht, hR, hc, ho, h => by
    rw [Within] at h
    rcases h with rfl | h
    · exact always_self ho cx ht hc
    rw [fmt]
    refine always_wrap ?_ ho
    simp only [Expr.ordinary, Bool.and_eq_true] at ho
    refine Always.group (Always.right (Always.right (Always.right ?_ _) _) _) _
    rcases h with h | h | h
    · exact (((always_fmt o R b c _ ⟨rfl, .inl rfl⟩ (fun _ h => hR _ (by simp [Within, h])) (fun h => by cases h) ho.1.1.2 h).softBlock).group _).left _
    · exact ((((always_fmt o R b t _ ⟨rfl, .inl rfl⟩ (fun _ h => hR _ (by simp [Within, h])) (fun h => by cases h) ho.1.2 h).body _ _).left _).right _).right _ |>.right _
    · refine Always.right (Always.right (Always.right (Always.right (Always.right (Always.node ?_ _ _) _) _) _) _) _
      exact (((always_fmt o R b e _ ⟨rfl, by
        dsimp only
        split
        · next hi =>
          right
          rcases ht.2 with h | h
          · rw [h, Option.getD_none]
            simp [forceBraces, hi]
          · rw [h]; rfl
        · exact .inl rfl⟩ (fun _ h => hR _ (by simp [Within, h])) (fun h => by cases h) ho.2 h).body _ _).right _).right _
  | .for_ a kw l v i s r e, cx, ht, hR, hc, ho, h => by
    rw [Within] at h
    rcases h with rfl | h
    · exact always_self ho cx ht hc
    rw [fmt]
    refine always_wrap ?_ ho
    simp only [Expr.ordinary, Bool.and_eq_true] at ho
    refine Always.group (Always.right (Always.right (Always.right ?_ _) _) _) _
    rcases h with h | h | h
    · exact (always_fmt o R b v _ ⟨rfl, .inl rfl⟩ (fun _ h => hR _ (by simp [Within, h])) (fun h => by cases h) ho.1.1.2 h).left _
    · refine Always.right (Always.right (Always.right (Always.right ?_ _) _) _) _
      exact (always_fmt o R b s _ ⟨rfl, .inl rfl⟩ (fun _ h => hR _ (by simp [Within, h])) (fun h => by cases h) ho.1.2 h).left _
    · refine Always.right (Always.right (Always.right (Always.right (Always.right (Always.right
        (Always.right ?_ _) _) _) _) _) _) _
      exact (always_fmt o R b e _ ⟨rfl, .inl rfl⟩ (fun _ h => hR _ (by simp [Within, h])) (fun h => by cases h) ho.2 h).body _ _
  | .while_ a kw l c r e, cx, ht, hR, hc, ho, h => by
    rw [Within] at h
    rcases h with rfl | h
    · exact always_self ho cx ht hc
    rw [fmt]
    refine always_wrap ?_ ho
    simp only [Expr.ordinary, Bool.and_eq_true] at ho
    refine Always.group (Always.right (Always.right (Always.right ?_ _) _) _) _
    rcases h with h | h
    · exact (((always_fmt o R b c _ ⟨rfl, .inl rfl⟩ (fun _ h => hR _ (by simp [Within, h])) (fun h => by cases h) ho.1.2 h).softBlock).group _).left _
    · exact ((((always_fmt o R b e _ ⟨rfl, .inl rfl⟩ (fun _ h => hR _ (by simp [Within, h])) (fun h => by cases h) ho.2 h).body _ _).right _).right _).right _
  | .repeat_ a kw e, cx, ht, hR, hc, ho, h => by
    rw [Within] at h
    rcases h with rfl | h
    · exact always_self ho cx ht hc
    rw [fmt]
    refine always_wrap ?_ ho
    simp only [Expr.ordinary, Bool.and_eq_true] at ho
    exact (Always.right (((always_fmt o R b e _ ⟨rfl, .inl rfl⟩ (fun _ h => hR _ (by simp [Within, h])) (fun h => by cases h) ho.2 h).body _ _).right _) _).group _
theorem always_fmts (o : Opts) (R : Expr → Prop) (b : Expr) : ∀ (es : Exprs) (cx : Cx) (top first : Bool),
    (∀ e', Withins e' es → R e') → es.ordinary o = true → Withins b es → Always (IsDoc o R b) (fmtExprs o cx top first es)
  | .nil, cx, top, first, hR, ho, h => by rw [Withins] at h; exact h.elim
  | .cons e es, cx, top, first, hR, ho, h => by
    rw [Withins] at h
    simp only [Exprs.ordinary, Bool.and_eq_true] at ho
    rw [fmtExprs]
    refine Always.right ?_ _
    rcases h with h | h
    · exact (always_fmt o R b e _ ⟨rfl, .inl rfl⟩ (fun _ h => hR _ (by simp [Withins, WithinArg, h])) (fun h => by cases h) ho.1 h).left _
    · exact (always_fmts o R b es _ _ _ (fun _ h => hR _ (by simp [Withins, h])) ho.2 h).right _
theorem always_items (o : Opts) (R : Expr → Prop) (b : Expr) : ∀ (xs : Items) (vcx : Cx) (dir : Bool),
    Usual vcx → vcx.chain = false → (∀ e', WithinItems e' xs → R e') → xs.ordinary o = true → WithinItems b xs →
    ∃ d ∈ fmtItems o vcx dir xs, AlwaysI (IsDoc o R b) d
  | .nil, vcx, dir, ht, hv, hR, ho, h => by rw [WithinItems] at h; exact h.elim
  | .last x, vcx, dir, ht, hv, hR, ho, h => by
    rw [WithinItems] at h
    rw [fmtItems]
    rw [Items.ordinary] at ho
    have ha := ordinary_argAnn ho
    exact ⟨_, List.mem_singleton.mpr rfl, always_argDoc (always_fmtArg o R b x vcx ht hv (fun _ h => hR _ (by simp [WithinItems, h])) ho h) ha,
      always_argDoc (always_fmtArg o R b x { vcx with flatParams := true } ht hv (fun _ h => hR _ (by simp [WithinItems, h])) ho h) ha⟩
  | .cons x s xs, vcx, dir, ht, hv, hR, ho, h => by
    rw [WithinItems] at h
    rw [fmtItems]
    simp only [Items.ordinary, Bool.and_eq_true] at ho
    rcases h with h | h
    · have ha := ordinary_argAnn ho.1
      exact ⟨_, List.mem_cons_self .., always_argDoc (always_fmtArg o R b x vcx ht hv (fun _ h => hR _ (by simp [WithinItems, h])) ho.1 h) ha,
        always_argDoc (always_fmtArg o R b x { vcx with flatParams := true } ht hv (fun _ h => hR _ (by simp [WithinItems, h])) ho.1 h) ha⟩
    · obtain ⟨d, hd, hQ⟩ := always_items o R b xs vcx dir ht hv (fun _ h => hR _ (by simp [WithinItems, h])) ho.2 h
      exact ⟨d, List.mem_cons_of_mem _ hd, hQ⟩
theorem always_fmtArg (o : Opts) (R : Expr → Prop) (b : Expr) : ∀ (x : Arg) (vcx : Cx),
    Usual vcx → vcx.chain = false → (∀ e', WithinArg e' x → R e') → x.ordinary o = true → WithinArg b x → Always (IsDoc o R b) (fmtArg o vcx x)
  | .hole a, vcx, ht, hv, hR, ho, h => by rw [WithinArg] at h; exact h.elim
  | .val a e, vcx, ht, hv, hR, ho, h => by
    rw [WithinArg] at h
    simp only [Arg.ordinary, Bool.and_eq_true] at ho
    rw [fmtArg]
    exact always_fmt o R b e vcx ht (fun _ h => hR _ (by simp [Withins, WithinArg, h])) (fun h => by rw [hv] at h; cases h) ho.2 h
  | .name a na n q, vcx, ht, hv, hR, ho, h => by
    rw [WithinArg] at h
    simp only [Arg.ordinary, Bool.and_eq_true] at ho
    rw [fmtArg]
    exact (((always_fmt o R b n _ ⟨rfl, .inl rfl⟩ (fun _ h => hR _ (by simp [Withins, WithinArg, h])) (fun h => by cases h) ho.2 h).left _).node _ _).left _
  | .named a na n q e, vcx, ht, hv, hR, ho, h => by
    rw [WithinArg] at h
    simp only [Arg.ordinary, Bool.and_eq_true] at ho
    rw [fmtArg]
    rcases h with h | h
    · exact (((always_fmt o R b n _ ⟨rfl, .inl rfl⟩ (fun _ h => hR _ (by simp [Withins, WithinArg, h])) (fun h => by cases h) ho.1.2 h).left _).node _ _).left _
    · exact ((always_fmt o R b e vcx ht (fun _ h => hR _ (by simp [Withins, WithinArg, h])) (fun h => by rw [hv] at h; cases h) ho.2 h).right _).right _
  | .pdef a n da q e, vcx, ht, hv, hR, ho, h => by
    rw [WithinArg] at h
    simp only [Arg.ordinary, Bool.and_eq_true] at ho
    rw [fmtArg]
    rcases h with h | h
    · exact (always_fmt o R b n _ ⟨rfl, .inl rfl⟩ (fun _ h => hR _ (by simp [Withins, WithinArg, h])) (fun h => by cases h) ho.1.2 h).left _
    · refine Always.right (Always.right (Always.node ?_ _ _) _) _
      exact ((always_fmt o R b e vcx ht (fun _ h => hR _ (by simp [Withins, WithinArg, h])) (fun h => by rw [hv] at h; cases h) ho.2 h).right _).right _
end

end Verif.Format
