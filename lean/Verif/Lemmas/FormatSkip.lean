import Verif.Lemmas.FormatToks
import Verif.Lemmas.FormatReads
import Verif.Spec.Skip

/-!
# Nodes that are to be left as they are appear in the output as they are
-/

namespace Verif.Format
open Verif.Syntax

/-! ## Infixes -/

theorem infix_left {α : Type} {r x : List α} (y : List α) (h : r <:+: x) : r <:+: x ++ y := by
  obtain ⟨a, b, rfl⟩ := h
  exact ⟨a, b ++ y, by simp⟩

theorem infix_right {α : Type} {r y : List α} (x : List α) (h : r <:+: y) : r <:+: x ++ y := by
  obtain ⟨a, b, rfl⟩ := h
  exact ⟨x ++ a, b, by simp⟩

theorem rawEls_cons (t : Token) (ts : List Token) : ∃ x, rawEls (t :: ts) = .tok (outTok t) :: x := by
  cases ts <;> exact ⟨_, rfl⟩

theorem rawEls_suffix (a ts : List Token) (h : ts ≠ []) : ∃ p, rawEls (a ++ ts) = p ++ rawEls ts := by
  induction a with
  | nil => exact ⟨[], rfl⟩
  | cons u a ih =>
    obtain ⟨p, hp⟩ := ih
    cases hx : a ++ ts with
    | nil => simp at hx; exact absurd hx.2 h
    | cons v w =>
      rw [hx] at hp
      exact ⟨.tok (outTok u) :: (u.trailing.map pieceEl ++ v.leading.map pieceEl ++ p), by
        rw [List.cons_append, hx, rawEls, hp]; simp⟩

theorem rawEls_prefix (ts b : List Token) : ∃ q, rawEls (ts ++ b) = rawEls ts ++ q := by
  induction ts with
  | nil => exact ⟨rawEls b, rfl⟩
  | cons u ts ih =>
    cases ts with
    | nil =>
      obtain ⟨x, hx⟩ := rawEls_cons u b
      exact ⟨x, by simpa [rawEls] using hx⟩
    | cons v ts =>
      obtain ⟨q, hq⟩ := ih
      exact ⟨q, by
        rw [List.cons_append, List.cons_append, rawEls, ← List.cons_append (as := ts), hq]
        simp [rawEls]⟩

theorem rawEls_infix {ts us : List Token} (h : ts <:+: us) (hn : ts ≠ []) :
    rawEls ts <:+: rawEls us := by
  obtain ⟨a, b, rfl⟩ := h
  obtain ⟨q, hq⟩ := rawEls_prefix (a ++ ts) b
  obtain ⟨p, hp⟩ := rawEls_suffix a ts hn
  exact ⟨p, q, by rw [hq, hp]⟩

/-- Elements that are not postponed. -/
def El.isPlain : El → Bool
  | .tok _ | .comment _ | .blank _ | .rnl => true
  | _ => false

theorem pieceEl_isPlain (p : Piece) : (pieceEl p).isPlain = true := by
  unfold pieceEl; split <;> rfl

theorem rawEls_isPlain (ts : List Token) : ∀ e ∈ rawEls ts, e.isPlain = true := by
  induction ts with
  | nil => simp [rawEls]
  | cons t ts ih =>
    cases ts with
    | nil => simp [rawEls, El.isPlain]
    | cons u ts =>
      intro e he
      simp only [rawEls, List.mem_cons, List.mem_append, List.mem_map] at he
      rcases he with rfl | ((⟨p, -, rfl⟩ | ⟨p, -, rfl⟩) | he)
      · rfl
      · exact pieceEl_isPlain p
      · exact pieceEl_isPlain p
      · exact ih e he

/-! ## Documents -/

/-- The source text of the tokens is in every layout of the document. -/
def Has (ts : List Token) (d : Doc) : Prop :=
  ∀ ns m i x, Lays ns m i d x → rawEls ts <:+: x

variable {ts : List Token}

theorem Has.left {a : Doc} (h : Has ts a) (b : Doc) : Has ts (a ⊹ b) := by
  rintro ns m i x ⟨u, v, rfl, hu, -⟩
  exact infix_left _ (h _ _ _ _ hu)

theorem Has.right {b : Doc} (h : Has ts b) (a : Doc) : Has ts (a ⊹ b) := by
  rintro ns m i x ⟨u, v, rfl, -, hv⟩
  exact infix_right _ (h _ _ _ _ hv)

theorem Has.indent {d : Doc} (h : Has ts d) : Has ts (.indent d) := fun ns m i x hx => h ns m _ x hx

theorem Has.group {d : Doc} (h : Has ts d) (ex : Bool) : Has ts (.group ex d) := by
  rintro ns m i x ⟨m', -, hx⟩
  exact h _ _ _ _ hx

theorem Has.noSoft {d : Doc} (h : Has ts d) : Has ts (.noSoft d) := fun _ _ _ _ ⟨_, hx, _⟩ => h _ _ _ _ hx

theorem Has.alt {a b : Doc} (ha : Has ts a) (hb : Has ts b) : Has ts (.alt a b) := by
  rintro ns m i x (hx | hx)
  · exact ha _ _ _ _ hx
  · exact hb _ _ _ _ hx

theorem Has.cell {d : Doc} (h : Has ts d) : Has ts (.cell d) := by
  rintro ns m i x ⟨y, m', hy, -, rfl⟩
  obtain ⟨a, b, rfl⟩ := h _ _ _ _ hy
  refine infix_left _ ?_
  rw [List.filter_append, List.filter_append]
  have hr : ∀ p : El → Bool, (∀ e : El, e.isPlain = true → p e = true) →
      (rawEls ts).filter p = rawEls ts := fun p hp =>
    List.filter_eq_self.mpr fun e he => hp e (rawEls_isPlain ts e he)
  rw [hr _ (by intro e he; cases e <;> simp_all [El.isPlain])]
  exact ⟨_, _, rfl⟩

theorem Has.softBlock {d : Doc} (h : Has ts d) : Has ts (softBlock d) :=
  ((h.right _).indent).left _
theorem Has.hardBlock {d : Doc} (h : Has ts d) : Has ts (hardBlock d) :=
  ((h.right _).indent).left _

theorem Has.node {d : Doc} (h : Has ts d) (a : Ann) (dg : Doc) : Has ts (nodeDoc a d dg) :=
  (h.left _).right _

theorem Has.body {d : Doc} (h : Has ts d) (as force : Bool) : Has ts (bodyDoc as force d) := by
  unfold bodyDoc braceDoc
  split
  · exact h
  · split
    · exact ((h.hardBlock).left _).right _
    · exact ((h.softBlock).left _).right _

theorem has_verb {us : List Token} (h : ts <:+: us) (hn : ts ≠ []) : Has ts (.verb (rawEls us)) := by
  rintro ns m i x hx
  cases hx
  exact rawEls_infix h hn

theorem has_verbatim {us : List Token} (h : ts <:+: us) (hn : ts ≠ []) (a : Ann) :
    Has ts (verbatimDoc a us) := ((has_verb h hn).left _).right _

theorem tokens_ne_nil (e : Expr) : e.tokens ≠ [] := by
  cases e <;> simp [Expr.tokens]

/-! ## Entries of lists -/

/-- The source text is in the entry, grouped or not. -/
def HasI (ts : List Token) (d : ItemDoc) : Prop := Has ts d.doc ∧ Has ts d.grouped

theorem HasI.full {d : ItemDoc} (h : HasI ts d) : Has ts d.full := h.1.left _

theorem has_argsTail {ds : List ItemDoc} {d : ItemDoc} (hd : d ∈ ds) (h : Has ts d.doc) :
    Has ts (argsTail ds) := by
  induction ds with
  | nil => cases hd
  | cons x xs ih =>
    rcases List.mem_cons.mp hd with rfl | hd
    · exact ((h.left _).left _).right _
    · exact ((ih hd).right _).right _

theorem has_argsJoin {ds : List ItemDoc} {d : ItemDoc} (hd : d ∈ ds) (h : Has ts d.doc) :
    Has ts (argsJoin ds) := by
  cases ds with
  | nil => cases hd
  | cons x xs =>
    rcases List.mem_cons.mp hd with rfl | hd
    · exact (h.left _).left _
    · exact (has_argsTail hd h).right _

theorem has_paramsTail {ds : List ItemDoc} {d : ItemDoc} (hd : d ∈ ds) (h : Has ts d.doc) :
    Has ts (paramsTail ds) := by
  induction ds with
  | nil => cases hd
  | cons x xs ih =>
    rcases List.mem_cons.mp hd with rfl | hd
    · exact ((h.left _).left _).right _
    · exact ((ih hd).right _).right _

theorem has_paramsJoin {ds : List ItemDoc} {d : ItemDoc} (hd : d ∈ ds) (h : Has ts d.doc) :
    Has ts (paramsJoin ds) := by
  cases ds with
  | nil => cases hd
  | cons x xs =>
    rcases List.mem_cons.mp hd with rfl | hd
    · exact (h.left _).left _
    · exact (has_paramsTail hd h).right _

theorem has_catAll {ds : List ItemDoc} {d : ItemDoc} (hd : d ∈ ds) (h : Has ts d.doc) :
    Has ts (catAll (ds.map ItemDoc.full)) := by
  induction ds with
  | nil => cases hd
  | cons x xs ih =>
    rcases List.mem_cons.mp hd with rfl | hd
    · exact (h.left _).left _
    · exact (ih hd).right _

theorem has_groupedJoin {ex single : Bool} {ds : List ItemDoc} {d : ItemDoc} (hd : d ∈ ds)
    (h : HasI ts d) : Has ts (groupedJoin ex single ds) := by
  induction ds with
  | nil => cases hd
  | cons x xs ih =>
    cases xs with
    | nil =>
      simp only [List.mem_singleton] at hd
      subst hd
      have : Has ts ((if single then d.doc else d.grouped) ⊹ d.sepDoc) := by
        refine Has.left ?_ _
        split
        · exact h.1
        · exact h.2
      unfold groupedJoin
      dsimp only
      split
      · exact this.group _
      · exact this
    | cons y ys =>
      rcases List.mem_cons.mp hd with rfl | hd
      · exact h.full.left _
      · exact ((ih hd).right _).right _

theorem has_testJoin {ds : List ItemDoc} {d : ItemDoc} (hd : d ∈ ds) (h : Has ts d.doc) :
    Has ts (testJoin ds) := by
  induction ds with
  | nil => cases hd
  | cons x xs ih =>
    cases xs with
    | nil =>
      simp only [List.mem_singleton] at hd
      subst hd
      exact h.left _
    | cons y ys =>
      rcases List.mem_cons.mp hd with rfl | hd
      · exact (h.left _).left _
      · exact ((ih hd).right _).right _

theorem has_brokenOut {ex : Bool} {l r : Token} {holes args : List ItemDoc} {d : ItemDoc}
    (hd : d ∈ holes ∨ d ∈ args) (h : Has ts d.doc) : Has ts (brokenOut ex l holes args r) := by
  unfold brokenOut
  refine Has.group (Has.right ?_ _) _
  rcases hd with hd | hd
  · exact (has_catAll hd h).left _
  · refine Has.right (Has.right (Has.left ?_ _) _) _
    split
    · cases args with
      | nil => cases hd
      | cons x xs => simp_all
    · split
      · exact has_argsJoin hd h
      · exact (has_argsJoin hd h).softBlock

theorem has_groupedArgs {l r : Token} {holes args : List ItemDoc} {d : ItemDoc}
    (hd : d ∈ holes ∨ d ∈ args) (h : HasI ts d) : Has ts (groupedArgs l holes args r) := by
  have key : ∀ ex, Has ts ((tokDoc l ⊹ catAll (holes.map ItemDoc.full) ⊹
      maybeSpace (!holes.isEmpty && !args.isEmpty)) ⊹
      groupedJoin ex (args.length == 1) args ⊹ tokDoc r) := by
    intro ex
    rcases hd with hd | hd
    · exact (((has_catAll hd h.1).left _).right _).left _
    · exact ((has_groupedJoin hd h).left _).right _
  exact Has.alt ((key false).group _) (Has.alt ((key true).group _) (has_brokenOut hd h.1))

theorem mem_take_drop {α : Type} {p : α → Bool} {l : List α} {x : α} (h : x ∈ l) :
    x ∈ l.takeWhile p ∨ x ∈ l.dropWhile p := by
  rw [← List.takeWhile_append_dropWhile (p := p) (l := l)] at h
  exact List.mem_append.mp h

theorem has_argsDoc {o : Opts} {k : CallKind} {aa : Ann} {l r : Token} {items : Items}
    {ds : List ItemDoc} {d : ItemDoc} (hd : d ∈ ds) (h : HasI ts d) :
    Has ts (argsDoc o k aa l items ds r) := by
  unfold argsDoc
  split
  · cases ds with
    | nil => cases hd
    | cons x xs => simp_all
  split
  · exact ((has_testJoin hd h.1).left _).right _
  · dsimp only
    have hd' := mem_take_drop (p := ItemDoc.isHole) hd
    split
    · exact has_brokenOut hd' h.1
    split
    · exact has_brokenOut hd' h.1
    split
    · exact has_groupedArgs hd' h
    · exact has_brokenOut hd' h.1

/-- The source text is in the cell. -/
def HasC (ts : List Token) (d : ItemDoc) : Prop :=
  (d.arg.isNumeric = true → Has ts d.doc) ∧ (d.arg.isNumeric = false → Has ts d.fields)

theorem has_cellDoc {d : ItemDoc} (h : HasC ts d) : Has ts (cellDoc d) := by
  unfold cellDoc
  refine Has.right (Has.left ?_ _) _
  cases hn : d.arg.isNumeric with
  | true => exact h.1 hn
  | false => exact ((h.2 hn).cell.left _).right _

theorem has_tableRows {ds : List ItemDoc} {d : ItemDoc} (hd : d ∈ ds) (h : HasC ts d) :
    ∀ first, Has ts (tableRows first ds) := by
  induction ds with
  | nil => cases hd
  | cons x xs ih =>
    intro first
    rcases List.mem_cons.mp hd with rfl | hd
    · exact ((has_cellDoc h).left _).right _
    · exact ((ih hd false).right _).right _

theorem has_tableDoc {o : Opts} {aa : Ann} {l r : Token} {items : Items}
    {ds : List ItemDoc} {d : ItemDoc}
    (hd : d ∈ ds.takeWhile (fun x => !x.arg.isNamed) ∧ HasC ts d ∨
      d ∈ ds.dropWhile (fun x => !x.arg.isNamed) ∧ Has ts d.doc)
    (ht : ts <:+: items.tokens) (hn : ts ≠ []) :
    Has ts (tableDoc o aa l items ds r) := by
  unfold tableDoc
  split
  · cases ds with
    | nil => rcases hd with ⟨hd, -⟩ | ⟨hd, -⟩ <;> cases hd
    | cons x xs => simp_all
  refine Has.alt ((Has.right (Has.left (Has.softBlock ?_) _) _).group _) (has_verbatim ?_ hn _)
  · rcases hd with ⟨hd, h⟩ | ⟨hd, h⟩
    · exact (has_tableRows hd h true).left _
    · refine Has.right ?_ _
      cases he : ds.dropWhile (fun x => !x.arg.isNamed) with
      | nil => rw [he] at hd; cases hd
      | cons x xs => rw [he] at hd; exact (has_argsTail hd h).right _
  · exact infix_right [l] (infix_left [r] ht)

theorem has_paramsDoc {o : Opts} {pa : Ann} {l r : Token}
    {ds : List ItemDoc} {d : ItemDoc} (hd : d ∈ ds) (h : Has ts d.doc) :
    Has ts (paramsDoc o pa l ds r) := by
  unfold paramsDoc
  refine Has.node ?_ _ _
  cases ds with
  | nil => cases hd
  | cons x xs => exact (Has.right (Has.left (has_paramsJoin hd h).softBlock _) _).group _

/-! ## Nodes -/

theorem suppressed_eq (o : Opts) (cx : Cx) (e : Expr) : suppressed o cx e = asksSkip o cx.dir e := by
  cases e with
  | call a k f aa l items r =>
    cases k with
    | call =>
      unfold suppressed asksSkip inSetting calleeName
      cases f with
      | atom b k t => cases k <;> simp [hasDirective, Ann.asks, Expr.ann]
      | sel b k x p y =>
        cases k with
        | extract => simp [hasDirective, Ann.asks, Expr.ann]
        | «namespace» =>
          cases y with
          | atom c k t => cases k <;> simp [hasDirective, Ann.asks, Expr.ann]
          | _ => simp [hasDirective, Ann.asks, Expr.ann]
      | _ => simp [hasDirective, Ann.asks, Expr.ann]
    | _ => rfl
  | _ => rfl

theorem isTable_eq (o : Opts) (dir tb : Bool) (a : Ann) (f : Expr) :
    (tb || (hasDirective o dir a .table || inSetting o.table f)) = asksTable o dir tb a f := by
  unfold asksTable inSetting calleeName
  cases f with
  | atom b k t => cases k <;> simp [hasDirective, Ann.asks, Bool.or_assoc]
  | sel b k x p y =>
    cases k with
    | extract => simp [hasDirective, Ann.asks]
    | «namespace» =>
      cases y with
      | atom c k t => cases k <;> simp [hasDirective, Ann.asks, Bool.or_assoc]
      | _ => simp [hasDirective, Ann.asks]
  | _ => simp [hasDirective, Ann.asks]

theorem mem_pick {b : Bool} {us : List Token} {inner : List (List Token)}
    (h : ts ∈ pick b us inner) : b = true ∧ ts = us ∨ b = false ∧ ts ∈ inner := by
  unfold pick at h
  cases b with
  | true => exact .inl ⟨rfl, by simpa using h⟩
  | false => exact .inr ⟨rfl, h⟩

theorem has_wrap {o : Opts} {cx : Cx} {e : Expr} {d : Doc} {inner : List (List Token)}
    (hd : ts ∈ inner → Has ts d)
    (h : ts ∈ pick (asksSkip o (cx.dir && !(cx.chain && e.isChain)) e) e.tokens inner) :
    Has ts (wrapDoc o cx e d) := by
  unfold wrapDoc
  by_cases hc : (cx.chain && e.isChain) = true
  · rw [if_pos hc]
    have hf : asksSkip o (cx.dir && !(cx.chain && e.isChain)) e = false := by
      rw [hc]
      simp only [Bool.and_eq_true] at hc
      cases e <;> simp_all [asksSkip, Expr.isChain]
    rw [hf] at h
    exact (hd h).left _
  · rw [if_neg hc]
    simp only [Bool.not_eq_true] at hc
    rw [hc, Bool.not_false, Bool.and_true] at h
    rw [suppressed_eq]
    rcases mem_pick h with ⟨h1, rfl⟩ | ⟨h1, h2⟩
    · rw [if_pos h1]
      exact has_verbatim ⟨[], [], by simp⟩ (tokens_ne_nil e) _
    · rw [if_neg (by simp [h1])]
      exact (hd h2).node _ _

theorem has_argDoc {o : Opts} {dir : Bool} {x : Arg} {d : Doc} {inner : List (List Token)}
    (hd : ts ∈ inner → Has ts d) (hn : x.tokens ≠ [])
    (h : ts ∈ pick (dir && x.ann.asks o .skip) x.tokens inner) : Has ts (argDoc o dir x d) := by
  unfold argDoc
  have : hasDirective o dir x.ann .skip = (dir && x.ann.asks o .skip) := rfl
  rw [this]
  rcases mem_pick h with ⟨h1, rfl⟩ | ⟨h1, h2⟩
  · rw [if_pos h1]
    exact has_verbatim ⟨[], [], by simp⟩ hn _
  · rw [if_neg (by simp [h1])]
    exact (hd h2).node _ _

/-! ## They are parts of the source -/

theorem pick_part {b : Bool} {us : List Token} {inner : List (List Token)} (hu : us ≠ [])
    (hi : ts ∈ inner → ts <:+: us ∧ ts ≠ []) (h : ts ∈ pick b us inner) : ts <:+: us ∧ ts ≠ [] := by
  rcases mem_pick h with ⟨-, rfl⟩ | ⟨-, h2⟩
  · exact ⟨⟨[], [], by simp⟩, hu⟩
  · exact hi h2

theorem infix_cons {α : Type} {r y : List α} (x : α) (h : r <:+: y) : r <:+: x :: y :=
  infix_right [x] h

mutual
theorem skips_part (o : Opts) (dir inArg tb : Bool) : ∀ (e : Expr),
    ts ∈ e.skips o dir inArg tb → ts <:+: e.tokens ∧ ts ≠ []
  | .atom a k t, h => pick_part (tokens_ne_nil (.atom a k t)) (fun h => by cases h) h
  | .str a p c l, h => pick_part (tokens_ne_nil (.str a p c l)) (fun h => by cases h) h
  | .paren a l e r, h => pick_part (tokens_ne_nil (.paren a l e r)) (fun h =>
      have ih := skips_part o _ _ _ e h
      ⟨infix_cons _ (infix_left _ ih.1), ih.2⟩) h
  | .braced a l es r, h => pick_part (tokens_ne_nil (.braced a l es r)) (fun h => by
      split at h
      · cases h
      · have ih := skipss_part o _ es h
        exact ⟨infix_cons _ (infix_left _ ih.1), ih.2⟩) h
  | .unary a p e, h => pick_part (tokens_ne_nil (.unary a p e)) (fun h =>
      have ih := skips_part o _ _ _ e h
      ⟨infix_cons _ ih.1, ih.2⟩) h
  | .binary a x p y, h => pick_part (tokens_ne_nil (.binary a x p y)) (fun h => by
      rcases List.mem_append.mp h with h | h
      · have ih := skips_part o _ _ _ x h
        exact ⟨infix_left _ ih.1, ih.2⟩
      · have ih := skips_part o _ _ _ y h
        exact ⟨infix_right _ (infix_cons _ ih.1), ih.2⟩) h
  | .sel a k x p y, h => pick_part (tokens_ne_nil (.sel a k x p y)) (fun h => by
      rcases List.mem_append.mp h with h | h
      · have ih := skips_part o _ _ _ x h
        exact ⟨infix_left _ ih.1, ih.2⟩
      · have ih := skips_part o _ _ _ y h
        exact ⟨infix_right _ (infix_cons _ ih.1), ih.2⟩) h
  | .call a k f aa l items r, h => pick_part (tokens_ne_nil (.call a k f aa l items r)) (fun h => by
      rcases List.mem_append.mp h with h | h
      · have ih := skips_part o _ _ _ f h
        exact ⟨infix_left _ ih.1, ih.2⟩
      · have ih := skipsItems_part o _ _ _ items h
        exact ⟨infix_right _ (infix_cons _ (infix_left _ ih.1)), ih.2⟩) h
  | .func a kw pa l items r b, h => pick_part (tokens_ne_nil (.func a kw pa l items r b)) (fun h => by
      rcases List.mem_append.mp h with h | h
      · have ih := skipsItems_part o _ _ _ items h
        exact ⟨infix_cons _ (infix_cons _ (infix_left _ ih.1)), ih.2⟩
      · have ih := skips_part o _ _ _ b h
        exact ⟨infix_cons _ (infix_cons _ (infix_right _ (infix_cons _ ih.1))), ih.2⟩) h
  | .ite a kw l c r t, h => pick_part (tokens_ne_nil (.ite a kw l c r t)) (fun h => by
      rcases List.mem_append.mp h with h | h
      · have ih := skips_part o _ _ _ c h
        exact ⟨infix_cons _ (infix_cons _ (infix_left _ ih.1)), ih.2⟩
      · have ih := skips_part o _ _ _ t h
        exact ⟨infix_cons _ (infix_cons _ (infix_right _ (infix_cons _ ih.1))), ih.2⟩) h
  | .itee a kw l c r t ea el e, h =>
    pick_part (tokens_ne_nil (.itee a kw l c r t ea el e)) (fun h => by
      rcases List.mem_append.mp h with h | h
      · rcases List.mem_append.mp h with h | h
        · have ih := skips_part o _ _ _ c h
          exact ⟨infix_cons _ (infix_cons _ (infix_left _ ih.1)), ih.2⟩
        · have ih := skips_part o _ _ _ t h
          exact ⟨infix_cons _ (infix_cons _ (infix_right _ (infix_cons _ (infix_left _ ih.1)))), ih.2⟩
      · have ih := skips_part o _ _ _ e h
        exact ⟨infix_cons _ (infix_cons _ (infix_right _ (infix_cons _
          (infix_right _ (infix_cons _ ih.1))))), ih.2⟩) h
  | .for_ a kw l v i s r b, h => pick_part (tokens_ne_nil (.for_ a kw l v i s r b)) (fun h => by
      rcases List.mem_append.mp h with h | h
      · rcases List.mem_append.mp h with h | h
        · have ih := skips_part o _ _ _ v h
          exact ⟨infix_cons _ (infix_cons _ (infix_left _ ih.1)), ih.2⟩
        · have ih := skips_part o _ _ _ s h
          exact ⟨infix_cons _ (infix_cons _ (infix_right _ (infix_cons _ (infix_left _ ih.1)))), ih.2⟩
      · have ih := skips_part o _ _ _ b h
        exact ⟨infix_cons _ (infix_cons _ (infix_right _ (infix_cons _
          (infix_right _ (infix_cons _ ih.1))))), ih.2⟩) h
  | .while_ a kw l c r b, h => pick_part (tokens_ne_nil (.while_ a kw l c r b)) (fun h => by
      rcases List.mem_append.mp h with h | h
      · have ih := skips_part o _ _ _ c h
        exact ⟨infix_cons _ (infix_cons _ (infix_left _ ih.1)), ih.2⟩
      · have ih := skips_part o _ _ _ b h
        exact ⟨infix_cons _ (infix_cons _ (infix_right _ (infix_cons _ ih.1))), ih.2⟩) h
  | .repeat_ a kw b, h => pick_part (tokens_ne_nil (.repeat_ a kw b)) (fun h =>
      have ih := skips_part o _ _ _ b h
      ⟨infix_cons _ ih.1, ih.2⟩) h
termination_by structural x => x
theorem skipss_part (o : Opts) (inArg : Bool) : ∀ (es : Exprs),
    ts ∈ es.skips o inArg → ts <:+: es.tokens ∧ ts ≠ []
  | .nil, h => by cases h
  | .cons e es, h => by
      rcases List.mem_append.mp h with h | h
      · have ih := skips_part o _ _ _ e h
        exact ⟨infix_left _ ih.1, ih.2⟩
      · have ih := skipss_part o _ es h
        exact ⟨infix_right _ ih.1, ih.2⟩
termination_by structural x => x
theorem skipsItems_part (o : Opts) (dir inArg cells : Bool) : ∀ (xs : Items),
    ts ∈ xs.skips o dir inArg cells → ts <:+: xs.tokens ∧ ts ≠ []
  | .nil, h => by cases h
  | .last x, h => skipsArg_part o _ _ x h
  | .cons x s xs, h => by
      rcases List.mem_append.mp h with h | h
      · have ih := skipsArg_part o _ _ x h
        exact ⟨infix_left _ ih.1, ih.2⟩
      · have ih := skipsItems_part o _ _ _ xs h
        exact ⟨infix_right _ (infix_cons _ ih.1), ih.2⟩
termination_by structural x => x
theorem skipsArg_part (o : Opts) (dir inArg : Bool) : ∀ (x : Arg),
    ts ∈ x.skips o dir inArg → ts <:+: x.tokens ∧ ts ≠ []
  | .hole _, h => by cases h
  | .val a e, h => pick_part (tokens_ne_nil e) (fun h => skips_part o _ _ _ e h) h
  | .name a na n q, h => pick_part (by simp [Arg.tokens]) (fun h =>
      have ih := skips_part o _ _ _ n h
      ⟨infix_left _ ih.1, ih.2⟩) h
  | .named a na n q e, h => pick_part (by simp [Arg.tokens]) (fun h => by
      rcases List.mem_append.mp h with h | h
      · have ih := skips_part o _ _ _ n h
        exact ⟨infix_left _ ih.1, ih.2⟩
      · have ih := skips_part o _ _ _ e h
        exact ⟨infix_right _ (infix_cons _ ih.1), ih.2⟩) h
  | .pdef a n da q e, h => pick_part (by simp [Arg.tokens]) (fun h => by
      rcases List.mem_append.mp h with h | h
      · have ih := skips_part o _ _ _ n h
        exact ⟨infix_left _ ih.1, ih.2⟩
      · have ih := skips_part o _ _ _ e h
        exact ⟨infix_right _ (infix_cons _ ih.1), ih.2⟩) h
termination_by structural x => x
end

/-! ## Main induction -/

/-- Conditions on a context that the rules never violate. -/
def Cx.Fair (cx : Cx) : Prop := cx.table ≠ some false

/-- The nodes to be left as they are in an expression formatted in context `cx`. -/
def skipsAt (o : Opts) (cx : Cx) (e : Expr) : List (List Token) :=
  e.skips o (cx.dir && !(cx.chain && e.isChain)) cx.inArg (cx.table == some true)

/-- The context of a value: nothing can be asked of it. -/
def Cx.Plain (cx : Cx) : Prop := cx.dir = false ∧ cx.table = none

theorem skipsAt_plain {o : Opts} {cx : Cx} (h : cx.Plain) (e : Expr) :
    skipsAt o cx e = e.skips o false cx.inArg false := by
  unfold skipsAt
  rw [h.1, h.2]
  rfl

theorem has_argDoc_inner {o : Opts} {dir inArg : Bool} {x : Arg} {d : Doc} (hd : Has ts d)
    (h : ts ∈ x.skips o false inArg) : Has ts (argDoc o dir x d) := by
  have hp := skipsArg_part o _ _ x h
  unfold argDoc
  split
  · exact has_verbatim hp.1 hp.2 _
  · exact hd.node _ _

/-- What is known of each entry. -/
def ArgHas (ts : List Token) (o : Opts) (vcx : Cx) (dir : Bool) (x : Arg) : Prop :=
  ∀ fp : Bool, (ts ∈ x.skips o false vcx.inArg → Has ts (fmtArg o { vcx with flatParams := fp } x)) ∧
    (ts ∈ x.skips o dir vcx.inArg → Has ts (argDoc o dir x (fmtArg o { vcx with flatParams := fp } x)))

theorem items_has {o : Opts} {vcx : Cx} {dir : Bool} (hf : vcx.flatParams = false) :
    ∀ (items : Items), (∀ x ∈ items.args, ArgHas ts o vcx dir x) →
    ts ∈ items.skips o dir vcx.inArg false → ∃ d ∈ fmtItems o vcx dir items, HasI ts d
  | .nil, _, h => by cases h
  | .last x, hx, h => by
    have hv0 : ({ vcx with flatParams := false } : Cx) = vcx := by cases vcx; simp_all
    have := hx x (by simp [Items.args])
    simp only [Items.skips, Bool.false_and, Bool.not_false, Bool.and_true] at h
    refine ⟨_, List.mem_singleton.mpr rfl, ?_, (this true).2 h⟩
    have h0 := (this false).2 h
    rwa [hv0] at h0
  | .cons x s xs, hx, h => by
    have hv0 : ({ vcx with flatParams := false } : Cx) = vcx := by cases vcx; simp_all
    have := hx x (by simp [Items.args])
    simp only [Items.skips, Bool.false_and, Bool.not_false, Bool.and_true, List.mem_append] at h
    rcases h with h | h
    · refine ⟨_, List.mem_cons_self, ?_, (this true).2 h⟩
      have h0 := (this false).2 h
      rwa [hv0] at h0
    · obtain ⟨d, hd, hi⟩ := items_has hf xs (fun y hy => hx y (by simp [Items.args, hy])) h
      exact ⟨d, List.mem_cons_of_mem _ hd, hi⟩

theorem items_has_table {o : Opts} {vcx : Cx} {dir : Bool} (hf : vcx.flatParams = false) :
    ∀ (items : Items), (∀ x ∈ items.args, ArgHas ts o vcx dir x) →
    ts ∈ items.skips o dir vcx.inArg true → ∃ d,
      d ∈ (fmtItems o vcx dir items).takeWhile (fun x => !x.arg.isNamed) ∧ HasC ts d ∨
      d ∈ (fmtItems o vcx dir items).dropWhile (fun x => !x.arg.isNamed) ∧ Has ts d.doc
  | .nil, _, h => by cases h
  | .last x, hx, h => by
    have hv0 : ({ vcx with flatParams := false } : Cx) = vcx := by cases vcx; simp_all
    have := hx x (by simp [Items.args]) false
    rw [hv0] at this
    cases hn : x.isNamed with
    | true =>
      simp only [Items.skips, hn, Bool.not_true, Bool.and_false, Bool.not_false, Bool.and_true] at h
      simp only [fmtItems, List.takeWhile_cons, List.dropWhile_cons, hn]
      exact ⟨_, .inr ⟨List.mem_singleton.mpr rfl, this.2 h⟩⟩
    | false =>
      simp only [Items.skips, hn, Bool.not_false, Bool.and_true, Bool.not_true, Bool.and_false] at h
      simp only [fmtItems, List.takeWhile_cons, List.dropWhile_cons, hn]
      exact ⟨_, .inl ⟨List.mem_singleton.mpr rfl,
        fun _ => has_argDoc_inner (this.1 h) h, fun _ => this.1 h⟩⟩
  | .cons x s xs, hx, h => by
    have hv0 : ({ vcx with flatParams := false } : Cx) = vcx := by cases vcx; simp_all
    have := hx x (by simp [Items.args]) false
    rw [hv0] at this
    cases hn : x.isNamed with
    | true =>
      simp only [Items.skips, hn, Bool.not_true, Bool.and_false, Bool.not_false, Bool.and_true,
        List.mem_append] at h
      rcases h with h | h
      · simp only [fmtItems, List.takeWhile_cons, List.dropWhile_cons, hn]
        exact ⟨_, .inr ⟨List.mem_cons_self, this.2 h⟩⟩
      · obtain ⟨d, hd, hi⟩ := items_has hf xs (fun y hy => hx y (by simp [Items.args, hy])) h
        refine ⟨d, .inr ⟨?_, hi.1⟩⟩
        simp only [fmtItems, List.dropWhile_cons, hn]
        exact List.mem_cons_of_mem _ hd
    | false =>
      simp only [Items.skips, hn, Bool.not_false, Bool.and_true, Bool.not_true, Bool.and_false,
        List.mem_append] at h
      rcases h with h | h
      · simp only [fmtItems, List.takeWhile_cons, List.dropWhile_cons, hn]
        exact ⟨_, .inl ⟨List.mem_cons_self,
          fun _ => has_argDoc_inner (this.1 h) h, fun _ => this.1 h⟩⟩
      · obtain ⟨d, hd⟩ := items_has_table hf xs (fun y hy => hx y (by simp [Items.args, hy])) h
        refine ⟨d, ?_⟩
        simp only [fmtItems, List.takeWhile_cons, List.dropWhile_cons, hn, Bool.not_false, if_true]
        rcases hd with ⟨hd, hc⟩ | hd
        · exact .inl ⟨List.mem_cons_of_mem _ hd, hc⟩
        · exact .inr hd

theorem plainOf {o : Opts} {e : Expr}
    (ih : ∀ cx : Cx, cx.Fair → ts ∈ skipsAt o cx e → Has ts (fmt o cx e)) (cx : Cx)
    (hp : cx.Plain) (h : ts ∈ e.skips o false cx.inArg false) : Has ts (fmt o cx e) :=
  ih cx (by rw [Cx.Fair, hp.2]; simp) (by rw [skipsAt_plain hp]; exact h)

mutual
theorem has_fmt (o : Opts) : ∀ (e : Expr) (cx : Cx), cx.Fair → ts ∈ skipsAt o cx e →
    Has ts (fmt o cx e)
  | .atom a k t, cx, _, h => by
    rw [fmt]
    exact has_wrap (inner := []) (fun h => by cases h) h
  | .str a p c l, cx, _, h => by
    cases c <;> simp only [fmt] <;> exact has_wrap (inner := []) (fun h => by cases h) h
  | .paren a l e r, cx, _, h => by
    rw [fmt]
    refine has_wrap (fun h => ?_) h
    have ih := plainOf (has_fmt o e) (bodyCx cx) ⟨rfl, rfl⟩ h
    refine Has.right (Has.left ?_ _) _
    split
    · exact ih.hardBlock
    · exact ih
  | .braced a l es r, cx, _, h => by
    rw [fmt]
    refine has_wrap (fun h => ?_) h
    have ih := has_fmtExprs o es cx false true
    cases hc : curlyCurly cx.inArg es with
    | some c => rw [hc] at h; cases h
    | none =>
      rw [hc] at h
      have h2 : Has ts (tokDoc l ⊹ hardBlock (fmtExprs o cx false true es) ⊹ tokDoc r) :=
        ((ih h).hardBlock.left _).right _
      cases es with
      | nil => cases h
      | cons e es =>
        unfold bracedDoc
        split
        · rename_i he; cases he
        · rw [hc]
          exact h2
  | .unary a p e, cx, _, h => by
    rw [fmt]
    refine has_wrap (fun h => ?_) h
    have ih : Has ts (fmt o (if p.kind = .wat then bodyCx cx else plainCx cx) e) := by
      split
      · exact plainOf (has_fmt o e) (bodyCx cx) ⟨rfl, rfl⟩ h
      · exact plainOf (has_fmt o e) (plainCx cx) ⟨rfl, rfl⟩ h
    refine Has.right (Has.right ?_ _) _
    split
    · exact ih.softBlock
    · exact ih
  | .binary a x p y, cx, hf, h => by
    rw [fmt]
    refine has_wrap (fun h => ?_) h
    have hx1 : isChainOp p.kind = false →
        ts ∈ x.skips o (!(isChainOp p.kind && x.isChain)) cx.inArg false →
        Has ts (fmt o (opCx cx p.kind) x) := fun hc h =>
      has_fmt o x _ (by simp [Cx.Fair, opCx]) (by simpa [skipsAt, opCx, hc] using h)
    have hx2 : isChainOp p.kind = true → ∀ al,
        ts ∈ x.skips o (!(isChainOp p.kind && x.isChain)) cx.inArg false →
        Has ts (fmt o { opCx cx p.kind with chain := true, aligned := al } x) := fun hc al h =>
      has_fmt o x _ (by simp [Cx.Fair, opCx]) (by simpa [skipsAt, opCx, hc] using h)
    have hy1 : isAssignOp p.kind = false → ∀ b,
        ts ∈ y.skips o true cx.inArg (isAssignOp p.kind && b) →
        Has ts (fmt o (opCx cx p.kind) y) := fun ha b h =>
      has_fmt o y _ (by simp [Cx.Fair, opCx]) (by simpa [skipsAt, opCx, ha] using h)
    split
    · rename_i hs
      obtain ⟨ha, hc⟩ := sticky_not hs
      refine Has.group ?_ _
      rcases List.mem_append.mp h with h | h
      · exact (hx1 hc h).left _
      · exact ((hy1 ha _ h).right _).right _
    split
    · rename_i ha
      have hc := assign_not ha
      refine Has.group ?_ _
      rcases List.mem_append.mp h with h | h
      · exact (hx1 hc h).left _
      · refine Has.right (Has.right (Has.right ?_ _) _) _
        have key : Has ts (fmt o { opCx cx p.kind with
            aligned := assignBreak o p.kind y,
            table := if hasDirective o cx.dir a .table then some true else none } y) := by
          refine has_fmt o y _ ?_ ?_
          · simp only [Cx.Fair]
            split <;> simp
          · have hd : (cx.dir && !(cx.chain && (Expr.binary a x p y).isChain)) = cx.dir := by
              simp [Expr.isChain, hc]
            rw [hd] at h
            simp only [skipsAt, opCx, ha, Bool.true_and, Bool.false_and, Bool.not_false] at h ⊢
            have he : ((if hasDirective o cx.dir a .table = true then some true else none) ==
                some true) = (cx.dir && a.asks o .table) := by
              unfold hasDirective Ann.asks
              cases cx.dir && a.leading.any (fun c => o.directive c.text == some .table) <;> rfl
            rw [he]
            exact h
        split
        · exact (key.right _).indent
        · exact key.right _
    rename_i ha
    simp only [Bool.not_eq_true] at ha
    split
    · rename_i hc
      dsimp only
      have : Has ts (fmt o { opCx cx p.kind with chain := true, aligned := cx.aligned } x ⊹
          (if cx.aligned then chainPiece p y (fmt o (opCx cx p.kind) y)
            else .indent (chainPiece p y (fmt o (opCx cx p.kind) y)))) := by
        rcases List.mem_append.mp h with h | h
        · exact (hx2 hc _ h).left _
        · refine Has.right ?_ _
          have hp : Has ts (chainPiece p y (fmt o (opCx cx p.kind) y)) :=
            (((hy1 ha _ h).right _).right _).right _
          split
          · exact hp
          · exact hp.indent
      split
      · exact this
      · exact this.group _
    · rename_i hc
      simp only [Bool.not_eq_true] at hc
      refine Has.group ?_ _
      rcases List.mem_append.mp h with h | h
      · exact (hx1 hc h).left _
      · exact ((((hy1 ha _ h).right _).indent.right _).right _).right _
  | .sel a k x p y, cx, _, h => by
    rw [fmt]
    refine has_wrap (fun h => ?_) h
    refine Has.group ?_ _
    rcases List.mem_append.mp h with h | h
    · exact (plainOf (has_fmt o x) (plainCx cx) ⟨rfl, rfl⟩ h).left _
    · exact ((plainOf (has_fmt o y) (plainCx cx) ⟨rfl, rfl⟩ h).right _).right _
  | .call a k f aa l items r, cx, hf, h => by
    rw [fmt]
    refine has_wrap (fun h => ?_) h
    rcases List.mem_append.mp h with h | h
    · exact (plainOf (has_fmt o f) (plainCx cx) ⟨rfl, rfl⟩ h).left _
    · refine Has.right (Has.node ?_ _ _) _
      have hd : (cx.dir && !(cx.chain && (Expr.call a k f aa l items r).isChain)) = cx.dir := by
        simp [Expr.isChain]
      rw [hd, ← isTable_eq] at h
      have ht : ((cx.table == some true) || (hasDirective o cx.dir a .table || inSetting o.table f)) =
          cx.table.getD (hasDirective o cx.dir a .table || inSetting o.table f) := by
        revert hf
        unfold Cx.Fair
        rcases cx.table with _ | (_ | _) <;> simp
      rw [ht] at h
      have hA := has_items o items { inArg := true } true ⟨rfl, rfl⟩
      split
      · rename_i hk
        rw [hk.1, hk.2] at h
        obtain ⟨d, hd⟩ := items_has_table (vcx := { inArg := true }) (dir := true) rfl items hA h
        have hp := skipsItems_part o _ _ _ items h
        exact has_tableDoc hd hp.1 hp.2
      · rename_i hk
        have hf' : (k == .call && cx.table.getD (hasDirective o cx.dir a .table ||
            inSetting o.table f)) = false := by
          cases k <;> simp_all
        rw [hf'] at h
        obtain ⟨d, hd, hi⟩ := items_has (vcx := { inArg := true }) (dir := true) rfl items hA h
        exact has_argsDoc hd hi
  | .func a kw pa l items r b, cx, _, h => by
    rw [fmt]
    refine has_wrap (fun h => ?_) h
    refine Has.group (Has.right ?_ _) _
    rcases List.mem_append.mp h with h | h
    · obtain ⟨d, hd, hi⟩ := items_has (vcx := plainCx cx) (dir := false) rfl items
        (has_items o items (plainCx cx) false ⟨rfl, rfl⟩) h
      have := has_paramsDoc (o := o) (pa := pa) (l := l) (r := r) hd hi.1
      refine Has.left ?_ _
      split
      · exact this.noSoft
      · exact this
    · exact (((plainOf (has_fmt o b) (bodyCx cx) ⟨rfl, rfl⟩ h).body _ _).right _).right _
  | .ite a kw l c r t, cx, _, h => by
    rw [fmt]
    refine has_wrap (fun h => ?_) h
    refine Has.group (Has.right (Has.right (Has.right ?_ _) _) _) _
    rcases List.mem_append.mp h with h | h
    · exact (Has.group (plainOf (has_fmt o c) (plainCx cx) ⟨rfl, rfl⟩ h).softBlock _).left _
    · exact (((((plainOf (has_fmt o t) (bodyCx cx) ⟨rfl, rfl⟩ h).body _ _).right _).right _)).right _
  | .itee a kw l c r t ea el e, cx, _, h => by
    rw [fmt]
    refine has_wrap (fun h => ?_) h
    refine Has.group (Has.right (Has.right (Has.right ?_ _) _) _) _
    rcases List.mem_append.mp h with h | h
    · rcases List.mem_append.mp h with h | h
      · exact (Has.group (plainOf (has_fmt o c) (plainCx cx) ⟨rfl, rfl⟩ h).softBlock _).left _
      · exact ((((plainOf (has_fmt o t) (bodyCx cx) ⟨rfl, rfl⟩ h).body _ _).left _).right _).right _ |>.right _
    · refine Has.right (Has.right (Has.right (Has.right (Has.right (Has.node ?_ _ _) _) _) _) _) _
      refine Has.right (Has.right (Has.body ?_ _ _) _) _
      exact plainOf (has_fmt o e) _ ⟨rfl, rfl⟩ h
  | .for_ a kw l v i s r b, cx, _, h => by
    rw [fmt]
    refine has_wrap (fun h => ?_) h
    refine Has.group (Has.right (Has.right (Has.right ?_ _) _) _) _
    rcases List.mem_append.mp h with h | h
    · rcases List.mem_append.mp h with h | h
      · exact (plainOf (has_fmt o v) (plainCx cx) ⟨rfl, rfl⟩ h).left _
      · exact (((((plainOf (has_fmt o s) (plainCx cx) ⟨rfl, rfl⟩ h).left _).right _).right _).right _).right _
    · exact (((((((plainOf (has_fmt o b) (bodyCx cx) ⟨rfl, rfl⟩ h).body _ _).right _).right _).right _).right _).right
          _).right _ |>.right _
  | .while_ a kw l c r b, cx, _, h => by
    rw [fmt]
    refine has_wrap (fun h => ?_) h
    refine Has.group (Has.right (Has.right (Has.right ?_ _) _) _) _
    rcases List.mem_append.mp h with h | h
    · exact (Has.group (plainOf (has_fmt o c) (plainCx cx) ⟨rfl, rfl⟩ h).softBlock _).left _
    · exact (((((plainOf (has_fmt o b) (bodyCx cx) ⟨rfl, rfl⟩ h).body _ _).right _).right _)).right _
  | .repeat_ a kw b, cx, _, h => by
    rw [fmt]
    refine has_wrap (fun h => ?_) h
    exact Has.group (((((plainOf (has_fmt o b) (bodyCx cx) ⟨rfl, rfl⟩ h).body _ _).right _)).right _) _
termination_by structural e => e
theorem has_fmtExprs (o : Opts) : ∀ (es : Exprs) (cx : Cx) (top first : Bool),
    ts ∈ es.skips o cx.inArg → Has ts (fmtExprs o cx top first es)
  | .nil, _, _, _, h => by cases h
  | .cons e es, cx, top, first, h => by
    rw [fmtExprs]
    refine Has.right ?_ _
    rcases List.mem_append.mp h with h | h
    · refine Has.left (has_fmt o e _ (by simp [Cx.Fair]) ?_) _
      simpa [skipsAt] using h
    · exact (has_fmtExprs o es cx top false h).right _
termination_by structural es => es
theorem has_items (o : Opts) : ∀ (xs : Items) (vcx : Cx) (dir : Bool), vcx.Plain →
    ∀ x ∈ xs.args, ArgHas ts o vcx dir x
  | .nil, _, _, _, x, hx => by cases hx
  | .last y, vcx, dir, hv, x, hx => by
    rw [List.mem_singleton.mp hx]
    exact has_arg o y vcx dir hv
  | .cons y _ ys, vcx, dir, hv, x, hx => by
    rcases List.mem_cons.mp hx with h | hx
    · rw [h]
      exact has_arg o y vcx dir hv
    · exact has_items o ys vcx dir hv x hx
termination_by structural xs => xs
theorem has_arg (o : Opts) : ∀ (x : Arg) (vcx : Cx) (dir : Bool), vcx.Plain →
    ArgHas ts o vcx dir x
  | .hole a, vcx, dir, hv => fun fp => ⟨(fun h => by cases h), fun h => by cases h⟩
  | .val a e, vcx, dir, hv => fun fp => by
    have key : ts ∈ e.skips o false vcx.inArg false →
        Has ts (fmtArg o { vcx with flatParams := fp } (.val a e)) := fun h => by
      rw [fmtArg]
      exact plainOf (has_fmt o e) { vcx with flatParams := fp } ⟨hv.1, hv.2⟩ h
    exact ⟨key, fun h => has_argDoc key (tokens_ne_nil e) h⟩
  | .name a na n q, vcx, dir, hv => fun fp => by
    have key : ts ∈ n.skips o false vcx.inArg false →
        Has ts (fmtArg o { vcx with flatParams := fp } (.name a na n q)) := fun h => by
      rw [fmtArg]
      exact ((plainOf (has_fmt o n) (plainCx { vcx with flatParams := fp }) ⟨rfl, rfl⟩ h).left _).node _ _ |>.left _
    exact ⟨key, fun h => has_argDoc key (by simp [Arg.tokens]) h⟩
  | .named a na n q e, vcx, dir, hv => fun fp => by
    have key : ts ∈ n.skips o false vcx.inArg false ++ e.skips o false vcx.inArg false →
        Has ts (fmtArg o { vcx with flatParams := fp } (.named a na n q e)) := fun h => by
      rw [fmtArg]
      rcases List.mem_append.mp h with h | h
      · exact ((plainOf (has_fmt o n) (plainCx { vcx with flatParams := fp }) ⟨rfl, rfl⟩ h).left _).node _ _ |>.left _
      · exact ((plainOf (has_fmt o e) { vcx with flatParams := fp } ⟨hv.1, hv.2⟩ h).right _).right _
    exact ⟨key, fun h => has_argDoc key (by simp [Arg.tokens]) h⟩
  | .pdef a n da q e, vcx, dir, hv => fun fp => by
    have key : ts ∈ n.skips o false vcx.inArg false ++ e.skips o false vcx.inArg false →
        Has ts (fmtArg o { vcx with flatParams := fp } (.pdef a n da q e)) := fun h => by
      rw [fmtArg]
      rcases List.mem_append.mp h with h | h
      · exact (plainOf (has_fmt o n) (plainCx { vcx with flatParams := fp }) ⟨rfl, rfl⟩ h).left _
      · exact ((((plainOf (has_fmt o e) { vcx with flatParams := fp } ⟨hv.1, hv.2⟩ h).right _).right _).node _ _).right _ |>.right _
    exact ⟨key, fun h => has_argDoc key (by simp [Arg.tokens]) h⟩
termination_by structural x => x
end

end Verif.Format
