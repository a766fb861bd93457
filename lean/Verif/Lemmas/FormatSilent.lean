import Verif.Lemmas.FormatItems

/-!
# Expressions without comments are printed without comments
-/

namespace Verif.Format
open Verif.Syntax

/-- The document contains no comments. -/
def Doc.plain : Doc → Bool
  | .comment _ | .suffix .. => false
  | .cat a b | .alt a b => a.plain && b.plain
  | .indent d | .group _ d | .ifBreaks d | .noSoft d | .cell d => d.plain
  | .verb es => es.all (fun e => !e.isComment)
  | _ => true

theorem Doc.plain.silent {d : Doc} (h : d.plain = true) : d.Silent := by
  induction d with
  | nil => intro ns m i x hx e he; cases hx; cases he
  | cat a b iha ihb =>
    simp only [Doc.plain, Bool.and_eq_true] at h
    rintro ns m i _ ⟨x, y, rfl, hx, hy⟩ e he
    rcases List.mem_append.1 he with he | he
    · exact iha h.1 _ _ _ _ hx e he
    · exact ihb h.2 _ _ _ _ hy e he
  | alt a b iha ihb =>
    simp only [Doc.plain, Bool.and_eq_true] at h
    rintro ns m i _ (hx | hx)
    · exact iha h.1 _ _ _ _ hx
    · exact ihb h.2 _ _ _ _ hx
  | tok t => intro ns m i x hx e he; cases hx; simp at he; subst he; rfl
  | comment t => cases h
  | suffix l t => cases h
  | space => intro ns m i x hx e he; cases hx; simp at he; subst he; rfl
  | pad =>
    rintro ns m i _ ⟨n, rfl⟩ e he
    unfold padEls at he
    split at he <;> simp at he
    subst he; rfl
  | line l =>
    intro ns m i x hx e he
    have hx : x = layLine ns m i l := hx
    subst hx
    cases l <;> simp only [layLine] at he <;> (try split at he) <;> simp at he <;> subst he <;> rfl
  | rnl => intro ns m i x hx e he; cases hx; simp at he; subst he; rfl
  | indent d ih => intro ns m i x hx; exact ih h _ _ _ _ hx
  | group ex d ih => rintro ns m i x ⟨m', -, hx⟩; exact ih h _ _ _ _ hx
  | ifBreaks d ih =>
    rintro ns m i x (⟨-, hx⟩ | ⟨-, rfl⟩)
    · exact ih h _ _ _ _ hx
    · intro e he; cases he
  | noSoft d ih => rintro ns m i x ⟨m', hx, -⟩; exact ih h _ _ _ _ hx
  | cell d ih =>
    rintro ns m i _ ⟨x, m', hx, -, rfl⟩
    have := ih h _ _ _ _ hx
    rw [inlineSuffixes_of_quiet this]
    exact this
  | verb es =>
    intro ns m i x hx e he
    cases hx
    simp only [Doc.plain, List.all_eq_true, Bool.not_eq_true'] at h
    exact h e he

@[simp] theorem plain_cat (a b : Doc) : (a ⊹ b).plain = (a.plain && b.plain) := rfl
@[simp] theorem plain_tokDoc (t : Token) : (tokDoc t).plain = true := rfl
@[simp] theorem plain_tok (t : Tok) : (Doc.tok t).plain = true := rfl
@[simp] theorem plain_nil : Doc.nil.plain = true := rfl
@[simp] theorem plain_space : Doc.space.plain = true := rfl
@[simp] theorem plain_pad : Doc.pad.plain = true := rfl
@[simp] theorem plain_rnl : Doc.rnl.plain = true := rfl
@[simp] theorem plain_line (l : Line) : (Doc.line l).plain = true := rfl
@[simp] theorem plain_indent (d : Doc) : (Doc.indent d).plain = d.plain := rfl
@[simp] theorem plain_group (b : Bool) (d : Doc) : (Doc.group b d).plain = d.plain := rfl
@[simp] theorem plain_ifBreaks (d : Doc) : (Doc.ifBreaks d).plain = d.plain := rfl
@[simp] theorem plain_noSoft (d : Doc) : (Doc.noSoft d).plain = d.plain := rfl
@[simp] theorem plain_cell (d : Doc) : (Doc.cell d).plain = d.plain := rfl
@[simp] theorem plain_alt (a b : Doc) : (Doc.alt a b).plain = (a.plain && b.plain) := rfl
@[simp] theorem plain_softBlock (d : Doc) : (softBlock d).plain = d.plain := by simp [softBlock]
@[simp] theorem plain_hardBlock (d : Doc) : (hardBlock d).plain = d.plain := by simp [hardBlock]
@[simp] theorem plain_spaceBlock (d : Doc) : (spaceBlock d).plain = d.plain := by
  simp [spaceBlock]
@[simp] theorem plain_maybeSpace (b : Bool) : (maybeSpace b).plain = true := by cases b <;> rfl
@[simp] theorem plain_stmtSep (b : Bool) (n : Nat) : (stmtSep b n).plain = true := by
  unfold stmtSep; split <;> split <;> (try split) <;> simp
theorem plain_ite (c : Prop) [Decidable c] (a b : Doc) (ha : a.plain = true) (hb : b.plain = true) :
    (if c then a else b).plain = true := by split <;> assumption
theorem plain_braceDoc (b : Bool) (d : Doc) (h : d.plain = true) : (braceDoc b d).plain = true := by
  cases b <;> simp [braceDoc, h]
theorem plain_bodyDoc (a b : Bool) (d : Doc) (h : d.plain = true) :
    (bodyDoc a b d).plain = true := by
  cases a
  · exact plain_braceDoc b d h
  · exact h
theorem plain_leading_nil : (leadingDoc []).plain = true := rfl
theorem plain_trailing_nil (n : Nat) : (trailingDoc n []).plain = true := rfl
theorem plain_danglingSoft_nil : (danglingSoft []).plain = true := rfl

theorem Ann.all_nil {a : Ann} (h : a.all = []) :
    a.leading = [] ∧ a.dangling = [] ∧ a.trailing = [] := by
  simpa [Ann.all] using h

theorem plain_nodeDoc {a : Ann} (h : a.all = []) {d e : Doc} (hd : d.plain = true)
    (he : e.plain = true) : (nodeDoc a d e).plain = true := by
  obtain ⟨h1, -, h3⟩ := Ann.all_nil h
  simp [nodeDoc, h1, h3, hd, he, leadingDoc, trailingDoc]

/-- Comments in trivia. -/
theorem hasComment_append (a b : List Piece) :
    hasComment (a ++ b) = (hasComment a || hasComment b) := List.any_append

theorem innerTrivia_append {a b : List Token} (h : hasComment (innerTrivia (a ++ b)) = false) :
    hasComment (innerTrivia a) = false ∧ hasComment (innerTrivia b) = false := by
  induction a with
  | nil => exact ⟨rfl, h⟩
  | cons t a ih =>
    cases a with
    | nil =>
      refine ⟨rfl, ?_⟩
      cases b with
      | nil => rfl
      | cons u b =>
        simp only [List.cons_append, List.nil_append, innerTrivia, hasComment_append,
          Bool.or_eq_false_iff] at h
        exact h.2
    | cons u a =>
      simp only [List.cons_append, innerTrivia, hasComment_append, Bool.or_eq_false_iff] at h ih ⊢
      obtain ⟨h1, h2⟩ := ih h.2
      exact ⟨⟨h.1, h1⟩, h2⟩

theorem innerTrivia_cons {t : Token} {b : List Token}
    (h : hasComment (innerTrivia (t :: b)) = false) : hasComment (innerTrivia b) = false :=
  (innerTrivia_append (a := [t]) h).2

theorem map_pieceEl_plain {ps : List Piece} (h : hasComment ps = false) :
    (ps.map pieceEl).all (fun e => !e.isComment) = true := by
  rw [List.all_map, List.all_eq_true]
  intro p hp
  have : (p.kind == .comment) = false := by
    have := List.any_eq_false.1 h p hp
    simpa using this
  simp only [Function.comp, pieceEl]
  revert this
  cases p.kind <;> intro h <;> first | rfl | cases h

theorem rawEls_plain {ts : List Token} (h : hasComment (innerTrivia ts) = false) :
    (rawEls ts).all (fun e => !e.isComment) = true := by
  match ts, h with
  | [], _ => rfl
  | [t], _ => rfl
  | t :: u :: ts, h =>
    simp only [innerTrivia, hasComment_append, Bool.or_eq_false_iff] at h
    have h1 := map_pieceEl_plain h.1.1
    have h2 := map_pieceEl_plain h.1.2
    have h3 := rawEls_plain h.2
    simp only [rawEls, List.all_cons, List.all_append, h1, h2, h3]
    rfl

theorem plain_verbatim {a : Ann} (h : a.all = []) {ts : List Token}
    (ht : hasComment (innerTrivia ts) = false) : (verbatimDoc a ts).plain = true := by
  obtain ⟨h1, -, h3⟩ := Ann.all_nil h
  simp only [verbatimDoc, h1, h3, List.takeWhile_nil, List.dropWhile_nil, plain_cat,
    leadingDoc, trailingDoc, plain_nil, Bool.true_and, Bool.and_true]
  exact rawEls_plain ht

theorem plain_wrapDoc {o : Opts} {cx : Cx} {e : Expr} {d : Doc} (h : e.ann.all = [])
    (ht : hasComment (innerTrivia e.tokens) = false) (hd : d.plain = true) :
    (wrapDoc o cx e d).plain = true := by
  obtain ⟨h1, h2, h3⟩ := Ann.all_nil h
  unfold wrapDoc
  split
  · simp [h3, hd, trailingDoc]
  · split
    · exact plain_verbatim h ht
    · exact plain_nodeDoc h hd (plain_ite _ _ _ rfl (by rw [h2]; rfl))

/-! ## Lists -/

/-- All documents of an entry are without comments. -/
structure ItemDoc.Plain (d : ItemDoc) : Prop where
  doc : d.doc.plain = true
  grouped : d.grouped.plain = true
  fields : d.fields.plain = true
  ann : d.arg.ann.all = []

theorem plain_sepDoc (d : ItemDoc) : d.sepDoc.plain = true := by
  unfold ItemDoc.sepDoc; split <;> rfl

theorem ItemDoc.Plain.full {d : ItemDoc} (h : d.Plain) : d.full.plain = true := by
  simp [ItemDoc.full, h.doc, plain_sepDoc]

theorem plain_catAll {ds : List ItemDoc} (h : ∀ d ∈ ds, d.Plain) :
    (catAll (ds.map ItemDoc.full)).plain = true := by
  induction ds with
  | nil => rfl
  | cons d ds ih =>
    simp [catAll, (h d (by simp)).full, ih fun e he => h e (by simp [he])]

theorem plain_argsTail {ds : List ItemDoc} (h : ∀ d ∈ ds, d.Plain) : (argsTail ds).plain = true := by
  induction ds with
  | nil => rfl
  | cons d ds ih =>
    simp [argsTail, (h d (by simp)).full, ih fun e he => h e (by simp [he])]

theorem plain_argsJoin {ds : List ItemDoc} (h : ∀ d ∈ ds, d.Plain) : (argsJoin ds).plain = true := by
  cases ds with
  | nil => rfl
  | cons d ds =>
    simp [argsJoin, (h d (by simp)).full, plain_argsTail (ds := ds) fun e he => h e (by simp [he])]

theorem plain_paramsTail {ds : List ItemDoc} (h : ∀ d ∈ ds, d.Plain) :
    (paramsTail ds).plain = true := by
  induction ds with
  | nil => rfl
  | cons d ds ih =>
    simp [paramsTail, (h d (by simp)).full, ih fun e he => h e (by simp [he])]

theorem plain_paramsJoin {ds : List ItemDoc} (h : ∀ d ∈ ds, d.Plain) :
    (paramsJoin ds).plain = true := by
  cases ds with
  | nil => rfl
  | cons d ds =>
    simp [paramsJoin, (h d (by simp)).full, plain_paramsTail (ds := ds) fun e he => h e (by simp [he])]

theorem plain_groupedJoin (ex single : Bool) {ds : List ItemDoc} (h : ∀ d ∈ ds, d.Plain) :
    (groupedJoin ex single ds).plain = true := by
  match ds, h with
  | [], _ => rfl
  | [d], h =>
    have hd := h d (by simp)
    have : ((if single then d.doc else d.grouped) ⊹ d.sepDoc).plain = true := by
      cases single <;> simp [hd.doc, hd.grouped, plain_sepDoc]
    simp only [groupedJoin]
    cases ex <;> exact this
  | d :: e :: ds, h =>
    simp [groupedJoin, (h d (by simp)).full, plain_groupedJoin ex single
      (ds := e :: ds) fun x hx => h x (by simp at hx ⊢; exact .inr hx)]

theorem plain_testJoin {ds : List ItemDoc} (h : ∀ d ∈ ds, d.Plain) : (testJoin ds).plain = true := by
  match ds, h with
  | [], _ => rfl
  | [d], h => exact (h d (by simp)).full
  | d :: e :: ds, h =>
    simp [testJoin, (h d (by simp)).full, plain_testJoin
      (ds := e :: ds) fun x hx => h x (by simp at hx ⊢; exact .inr hx)]

theorem plain_brokenOut (ex : Bool) (l r : Token) {holes args : List ItemDoc}
    (h : ∀ d ∈ holes, d.Plain) (h' : ∀ d ∈ args, d.Plain) :
    (brokenOut ex l holes args r).plain = true := by
  have h1 := plain_argsJoin h'
  simp only [brokenOut, plain_group, plain_cat, plain_tokDoc, plain_catAll h, plain_maybeSpace,
    Bool.true_and, Bool.and_true]
  exact plain_ite _ _ _ rfl (plain_ite _ _ _ h1 (by simp [h1]))

theorem plain_groupedArgs (l r : Token) {holes args : List ItemDoc}
    (h : ∀ d ∈ holes, d.Plain) (h' : ∀ d ∈ args, d.Plain) :
    (groupedArgs l holes args r).plain = true := by
  simp [groupedArgs, plain_catAll h, plain_groupedJoin _ _ h', plain_brokenOut true l r h h']

theorem plain_argsDoc {o : Opts} {k : CallKind} {aa : Ann} (ha : aa.all = []) (l : Token)
    (items : Items) {ds : List ItemDoc} (h : ∀ d ∈ ds, d.Plain) (r : Token) :
    (argsDoc o k aa l items ds r).plain = true := by
  have ht : ∀ d ∈ ds.takeWhile ItemDoc.isHole, d.Plain := fun d hd =>
    h d ((List.takeWhile_prefix _).subset hd)
  have hd : ∀ d ∈ ds.dropWhile ItemDoc.isHole, d.Plain := fun d hd =>
    h d ((List.dropWhile_suffix _).subset hd)
  obtain ⟨-, h2, -⟩ := Ann.all_nil ha
  unfold argsDoc
  refine plain_ite _ _ _ (by simp [h2, danglingSoft]) (plain_ite _ _ _
    (by simp [plain_testJoin h]) ?_)
  exact plain_ite _ _ _ (plain_brokenOut _ _ _ ht hd) (plain_ite _ _ _ (plain_brokenOut _ _ _ ht hd)
    (plain_ite _ _ _ (plain_groupedArgs _ _ ht hd) (plain_brokenOut _ _ _ ht hd)))

theorem plain_cellDoc {d : ItemDoc} (h : d.Plain) : (cellDoc d).plain = true := by
  obtain ⟨h1, -, h3⟩ := Ann.all_nil h.ann
  simp only [cellDoc, plain_cat, plain_pad, plain_space, Bool.true_and, Bool.and_true,
    Bool.and_eq_true]
  refine ⟨plain_ite _ _ _ h.doc (by simp [h1, h3, leadingDoc, trailingDoc, h.fields]),
    ?_⟩
  split <;> rfl

theorem plain_tableRows (first : Bool) {ds : List ItemDoc} (h : ∀ d ∈ ds, d.Plain) :
    (tableRows first ds).plain = true := by
  induction ds generalizing first with
  | nil => rfl
  | cons d ds ih =>
    simp only [tableRows, plain_cat, plain_cellDoc (h d (by simp)),
      ih _ fun e he => h e (by simp [he]), Bool.and_true]
    exact plain_ite _ _ _ rfl rfl

theorem plain_tableDoc {o : Opts} {aa : Ann} (ha : aa.all = []) (l : Token) (items : Items)
    {ds : List ItemDoc} (h : ∀ d ∈ ds, d.Plain) (r : Token)
    (ht : hasComment (innerTrivia (l :: (items.tokens ++ [r]))) = false) :
    (tableDoc o aa l items ds r).plain = true := by
  have h1 : ∀ d ∈ ds.takeWhile (fun x => !x.arg.isNamed), d.Plain := fun d hd =>
    h d ((List.takeWhile_prefix _).subset hd)
  have h2 : ∀ d ∈ ds.dropWhile (fun x => !x.arg.isNamed), d.Plain := fun d hd =>
    h d ((List.dropWhile_suffix _).subset hd)
  unfold tableDoc
  refine plain_ite _ _ _ (plain_argsDoc ha l items h r) ?_
  have hrem : (remainingDoc (ds.dropWhile (fun x => !x.arg.isNamed))).plain = true := by
    unfold remainingDoc
    split
    · rfl
    · simp [plain_argsTail h2]
  simp [plain_tableRows _ h1, hrem, plain_verbatim ha ht]

theorem plain_paramsDoc {o : Opts} {pa : Ann} (hp : pa.all = []) (l : Token) {ds : List ItemDoc}
    (h : ∀ d ∈ ds, d.Plain) (r : Token) : (paramsDoc o pa l ds r).plain = true := by
  obtain ⟨-, h2, -⟩ := Ann.all_nil hp
  refine plain_nodeDoc hp ?_ rfl
  cases ds with
  | nil => simp [h2, danglingSoft]
  | cons d ds => simp [plain_paramsJoin h]

/-! ## The induction -/

theorem plain_bracedDoc {o : Opts} {cx : Cx} {a : Ann} (ha : a.all = []) (l : Token) (es : Exprs)
    (hes : es.comments = []) {d : Doc} (hd : d.plain = true) (r : Token) :
    (bracedDoc cx a l es d r).plain = true := by
  obtain ⟨-, h2, -⟩ := Ann.all_nil ha
  unfold bracedDoc
  split
  · simp [h2, danglingHard]
  · split
    · rename_i es' _ ia il ea t ir hc
      unfold curlyCurly at hc
      split at hc
      · split at hc
        · cases hc
          simp only [Exprs.comments, Expr.comments, List.append_nil, List.append_eq_nil_iff] at hes
          obtain ⟨h1, -, h3⟩ := Ann.all_nil hes.1
          simp [h1, h3, leadingDoc, trailingDoc, plain_nodeDoc hes.2 (d := tokDoc t)
            (e := .nil) rfl rfl, (Ann.all_nil hes.2).2.1, danglingSoft]
        · cases hc
      · cases hc
    · simp [hd]

theorem fmt_plain (o : Opts) (e : Expr) : ∀ cx, e.comments = [] →
    hasComment (innerTrivia e.tokens) = false → (fmt o cx e).plain = true := by
  refine Expr.rec
    (motive_1 := fun e => ∀ cx, e.comments = [] → hasComment (innerTrivia e.tokens) = false →
      (fmt o cx e).plain = true)
    (motive_2 := fun es => ∀ cx top first, es.comments = [] →
      hasComment (innerTrivia es.tokens) = false → (fmtExprs o cx top first es).plain = true)
    (motive_3 := fun xs => ∀ vcx dir, xs.comments = [] →
      hasComment (innerTrivia xs.tokens) = false → ∀ d ∈ fmtItems o vcx dir xs, d.Plain)
    (motive_4 := fun x => ∀ vcx, x.comments = [] →
      hasComment (innerTrivia x.tokens) = false → (fmtArg o vcx x).plain = true)
    ?_ ?_ ?_ ?_ ?_ ?_ ?_ ?_ ?_ ?_ ?_ ?_ ?_ ?_ ?_ ?_ ?_ ?_ ?_ ?_ ?_ ?_ ?_ ?_ e
  · intro a k t cx hc ht
    rw [fmt]
    exact plain_wrapDoc hc ht rfl
  · intro a p c l cx hc ht
    cases c <;> simp only [fmt] <;> exact plain_wrapDoc hc ht rfl
  · intro a l e r ih cx hc ht
    simp only [Expr.comments, List.append_eq_nil_iff] at hc
    have h1 := ih (bodyCx cx) hc.2 (innerTrivia_append (innerTrivia_cons ht)).1
    rw [fmt]
    refine plain_wrapDoc hc.1 ht ?_
    simp only [plain_cat, plain_tokDoc, Bool.true_and, Bool.and_true]
    exact plain_ite _ _ _ (by simp [h1]) h1
  · intro a l es r ih cx hc ht
    simp only [Expr.comments, List.append_eq_nil_iff] at hc
    have h1 := ih cx false true hc.2 (innerTrivia_append (innerTrivia_cons ht)).1
    rw [fmt]
    exact plain_wrapDoc hc.1 ht (plain_bracedDoc (o := o) hc.1 l es hc.2 h1 r)
  · intro a p e ih cx hc ht
    simp only [Expr.comments, List.append_eq_nil_iff] at hc
    have h1 := ih (if p.kind = .wat then bodyCx cx else plainCx cx) hc.2 (innerTrivia_cons ht)
    rw [fmt]
    refine plain_wrapDoc hc.1 ht ?_
    simp only [plain_cat, plain_tokDoc, plain_maybeSpace, Bool.true_and]
    exact plain_ite _ _ _ (by simp [h1]) h1
  · intro a x p y ihx ihy cx hc ht
    simp only [Expr.comments, List.append_eq_nil_iff] at hc
    have hx := fun cx => ihx cx hc.1.2 (innerTrivia_append ht).1
    have hy := fun cx => ihy cx hc.2 (innerTrivia_cons (innerTrivia_append ht).2)
    rw [fmt]
    refine plain_wrapDoc hc.1.1 ht ?_
    refine plain_ite _ _ _ (by simp [hx, hy]) (plain_ite _ _ _ ?_ (plain_ite _ _ _ ?_ ?_))
    · simp only [plain_group, plain_cat, plain_space, plain_tok, hx, Bool.true_and]
      exact plain_ite _ _ _ (by simp [hy]) (by simp [hy])
    · refine plain_ite _ _ _ ?_ ?_ <;> simp only [plain_group, plain_cat, hx, Bool.true_and] <;>
        exact plain_ite _ _ _ (by simp [chainPiece, hy]) (by simp [chainPiece, hy])
    · simp [hx, hy]
  · intro a k x p y ihx ihy cx hc ht
    simp only [Expr.comments, List.append_eq_nil_iff] at hc
    have hx := fun cx => ihx cx hc.1.2 (innerTrivia_append ht).1
    have hy := fun cx => ihy cx hc.2 (innerTrivia_cons (innerTrivia_append ht).2)
    rw [fmt]
    exact plain_wrapDoc hc.1.1 ht (by simp [hx, hy])
  · intro a k f aa l items r ihf ihi cx hc ht
    simp only [Expr.comments, List.append_eq_nil_iff] at hc
    have hf := ihf (plainCx cx) hc.1.1.2 (innerTrivia_append ht).1
    have hi := ihi { inArg := true } true hc.2
      (innerTrivia_append (innerTrivia_cons (innerTrivia_append ht).2)).1
    rw [fmt]
    refine plain_wrapDoc hc.1.1.1 ht ?_
    simp only [plain_cat, hf, Bool.true_and]
    exact plain_nodeDoc hc.1.2 (plain_ite _ _ _
      (plain_tableDoc hc.1.2 l items hi r (innerTrivia_append ht).2)
      (plain_argsDoc hc.1.2 l items hi r)) rfl
  · intro a kw pa l items r b ihi ihb cx hc ht
    simp only [Expr.comments, List.append_eq_nil_iff] at hc
    have ht2 := innerTrivia_append (innerTrivia_cons (innerTrivia_cons ht))
    have hi := ihi (plainCx cx) false hc.1.2 ht2.1
    have hb := ihb (bodyCx cx) hc.2 (innerTrivia_cons ht2.2)
    have hp := plain_paramsDoc (o := o) hc.1.1.2 l hi r
    rw [fmt]
    refine plain_wrapDoc hc.1.1.1 ht ?_
    simp only [plain_group, plain_cat, plain_tokDoc, plain_space, plain_bodyDoc _ _ _ hb,
      Bool.true_and, Bool.and_true]
    exact plain_ite _ _ _ hp hp
  · intro a kw l c r t ihc iht cx hc ht
    simp only [Expr.comments, List.append_eq_nil_iff] at hc
    have ht2 := innerTrivia_append (innerTrivia_cons (innerTrivia_cons ht))
    have h1 := ihc (plainCx cx) hc.1.2 ht2.1
    have h2 := iht (bodyCx cx) hc.2 (innerTrivia_cons ht2.2)
    rw [fmt]
    exact plain_wrapDoc hc.1.1 ht (by simp [h1, plain_bodyDoc _ _ _ h2])
  · intro a kw l c r t ea el e ihc iht ihe cx hc ht
    simp only [Expr.comments, List.append_eq_nil_iff] at hc
    have ht2 := innerTrivia_append (innerTrivia_cons (innerTrivia_cons ht))
    have ht3 := innerTrivia_append (innerTrivia_cons ht2.2)
    have h1 := ihc (plainCx cx) hc.1.1.1.2 ht2.1
    have h2 := iht (bodyCx cx) hc.1.1.2 ht3.1
    have h3 := fun cx => ihe cx hc.2 (innerTrivia_cons ht3.2)
    rw [fmt]
    refine plain_wrapDoc hc.1.1.1.1 ht ?_
    simp only [plain_group, plain_cat, plain_tokDoc, plain_space, plain_softBlock, h1,
      plain_bodyDoc _ _ _ h2, Bool.true_and, Bool.and_true]
    refine plain_nodeDoc hc.1.2 (by simp [plain_bodyDoc _ _ _ (h3 _)]) ?_
    rw [(Ann.all_nil hc.1.2).2.1]
    rfl
  · intro a kw l v i s r b ihv ihs ihb cx hc ht
    simp only [Expr.comments, List.append_eq_nil_iff] at hc
    have ht2 := innerTrivia_append (innerTrivia_cons (innerTrivia_cons ht))
    have ht3 := innerTrivia_append (innerTrivia_cons ht2.2)
    have h1 := ihv (plainCx cx) hc.1.1.2 ht2.1
    have h2 := ihs (plainCx cx) hc.1.2 ht3.1
    have h3 := ihb (bodyCx cx) hc.2 (innerTrivia_cons ht3.2)
    rw [fmt]
    exact plain_wrapDoc hc.1.1.1 ht (by simp [h1, h2, plain_bodyDoc _ _ _ h3])
  · intro a kw l c r b ihc ihb cx hc ht
    simp only [Expr.comments, List.append_eq_nil_iff] at hc
    have ht2 := innerTrivia_append (innerTrivia_cons (innerTrivia_cons ht))
    have h1 := ihc (plainCx cx) hc.1.2 ht2.1
    have h2 := ihb (bodyCx cx) hc.2 (innerTrivia_cons ht2.2)
    rw [fmt]
    exact plain_wrapDoc hc.1.1 ht (by simp [h1, plain_bodyDoc _ _ _ h2])
  · intro a kw b ihb cx hc ht
    simp only [Expr.comments, List.append_eq_nil_iff] at hc
    have h2 := ihb (bodyCx cx) hc.2 (innerTrivia_cons ht)
    rw [fmt]
    exact plain_wrapDoc hc.1 ht (by simp [plain_bodyDoc _ _ _ h2])
  · intro cx top first _ _; rfl
  · intro e es ihe ihes cx top first hc ht
    simp only [Exprs.comments, List.append_eq_nil_iff] at hc
    have ht2 := innerTrivia_append ht
    rw [fmtExprs]
    simp only [plain_cat, ihe _ hc.1 ht2.1, ihes _ _ _ hc.2 ht2.2, Bool.and_true]
    exact plain_ite _ _ _ rfl (by simp)
  · intro vcx dir _ _ d hd; cases hd
  · intro x ihx vcx dir hc ht d hd
    simp only [Items.comments] at hc
    simp only [fmtItems, List.mem_singleton] at hd
    subst hd
    have ha : x.ann.all = [] := by
      cases x <;> simp_all [Arg.ann, Arg.comments, List.append_eq_nil_iff]
    have hw : ∀ vcx, (argDoc o dir x (fmtArg o vcx x)).plain = true := fun vcx => by
      unfold argDoc
      exact plain_ite _ _ _ (plain_verbatim ha ht)
        (plain_nodeDoc ha (ihx vcx hc ht) (by rw [(Ann.all_nil ha).2.1]; rfl))
    exact ⟨hw _, hw _, ihx _ hc ht, ha⟩
  · intro x s xs ihx ihxs vcx dir hc ht d hd
    simp only [Items.comments, List.append_eq_nil_iff] at hc
    have ht2 := innerTrivia_append ht
    simp only [fmtItems, List.mem_cons] at hd
    rcases hd with rfl | hd
    · have ha : x.ann.all = [] := by
        have := hc.1
        cases x <;> simp_all [Arg.ann, Arg.comments, List.append_eq_nil_iff]
      have hw : ∀ vcx, (argDoc o dir x (fmtArg o vcx x)).plain = true := fun vcx => by
        unfold argDoc
        exact plain_ite _ _ _ (plain_verbatim ha ht2.1)
          (plain_nodeDoc ha (ihx vcx hc.1 ht2.1) (by rw [(Ann.all_nil ha).2.1]; rfl))
      exact ⟨hw _, hw _, ihx _ hc.1 ht2.1, ha⟩
    · exact ihxs vcx dir hc.2 (innerTrivia_cons ht2.2) d hd
  · intro a vcx _ _; rfl
  · intro a e ihe vcx hc ht
    simp only [Arg.comments, List.append_eq_nil_iff] at hc
    rw [fmtArg]
    exact ihe _ hc.2 ht
  · intro a na n q ihn vcx hc ht
    simp only [Arg.comments, List.append_eq_nil_iff] at hc
    have ht2 := innerTrivia_append ht
    rw [fmtArg]
    simp only [plain_cat, plain_space, Bool.and_true]
    refine plain_nodeDoc hc.1.2 (by simp [ihn _ hc.2 ht2.1]) ?_
    rw [(Ann.all_nil hc.1.2).2.1]
    rfl
  · intro a na n q e ihn ihe vcx hc ht
    simp only [Arg.comments, List.append_eq_nil_iff] at hc
    have ht2 := innerTrivia_append ht
    rw [fmtArg]
    simp only [plain_cat, plain_space, Bool.true_and, ihe _ hc.2 (innerTrivia_cons ht2.2),
      Bool.and_true]
    refine plain_nodeDoc hc.1.1.2 (by simp [ihn _ hc.1.2 ht2.1]) ?_
    rw [(Ann.all_nil hc.1.1.2).2.1]
    rfl
  · intro a n da q e ihn ihe vcx hc ht
    simp only [Arg.comments, List.append_eq_nil_iff] at hc
    have ht2 := innerTrivia_append ht
    rw [fmtArg]
    simp only [plain_cat, plain_space, Bool.true_and, ihn _ hc.1.1.2 ht2.1]
    refine plain_nodeDoc hc.1.2 (by simp [ihe _ hc.2 (innerTrivia_cons ht2.2)]) ?_
    rw [(Ann.all_nil hc.1.2).2.1]
    rfl

/-- The fields of an argument without comments inside. -/
theorem fmtArg_silent (o : Opts) (vcx : Cx) {x : Arg} (h : x.Quiet) : (fmtArg o vcx x).Silent := by
  have key : ∀ e cx, e.comments = [] → hasComment (innerTrivia e.tokens) = false →
      (fmt o cx e).plain = true := fun e => fmt_plain o e
  obtain ⟨hc, ht⟩ := h
  refine Doc.plain.silent ?_
  cases x with
  | hole a => rfl
  | val a e => rw [fmtArg]; exact key e _ hc ht
  | name a na n q =>
    simp only [Arg.inner, List.append_eq_nil_iff] at hc
    have ht2 := innerTrivia_append ht
    rw [fmtArg]
    simp only [plain_cat, plain_space, Bool.and_true]
    refine plain_nodeDoc hc.1 (by simp [key n _ hc.2 ht2.1]) ?_
    rw [(Ann.all_nil hc.1).2.1]
    rfl
  | named a na n q e =>
    simp only [Arg.inner, List.append_eq_nil_iff] at hc
    have ht2 := innerTrivia_append ht
    rw [fmtArg]
    simp only [plain_cat, plain_space, Bool.true_and, key e _ hc.2 (innerTrivia_cons ht2.2),
      Bool.and_true]
    refine plain_nodeDoc hc.1.1 (by simp [key n _ hc.1.2 ht2.1]) ?_
    rw [(Ann.all_nil hc.1.1).2.1]
    rfl
  | pdef a n da q e =>
    simp only [Arg.inner, List.append_eq_nil_iff] at hc
    have ht2 := innerTrivia_append ht
    rw [fmtArg]
    simp only [plain_cat, plain_space, Bool.true_and, key n _ hc.1.1 ht2.1]
    refine plain_nodeDoc hc.1.2 (by simp [key e _ hc.2 (innerTrivia_cons ht2.2)]) ?_
    rw [(Ann.all_nil hc.1.2).2.1]
    rfl

end Verif.Format
