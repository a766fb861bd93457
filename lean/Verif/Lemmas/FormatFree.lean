import Verif.Lemmas.FormatCalm

/-!
# Documents without source text

Unless nodes are kept as written or printed as tables, white space comes from the printer only.
-/

namespace Verif.Format
open Verif.Syntax

/-- Neither source text nor table cells nor line breaks as text. -/
def Doc.free : Doc → Bool
  | .cat a b | .alt a b => a.free && b.free
  | .indent d | .group _ d | .ifBreaks d | .noSoft d => d.free
  | .pad | .rnl | .cell _ | .verb _ => false
  | _ => true

/-- Neither blanks nor line breaks as text. -/
def El.free : El → Bool
  | .blank _ | .rnl => false
  | _ => true

theorem Doc.free.lays {d : Doc} (h : d.free = true) : ∀ ns m i x, Lays ns m i d x →
    ∀ e ∈ x, e.free = true := by
  induction d with
  | nil => intro ns m i x hx e he; cases hx; cases he
  | cat a b iha ihb =>
    simp only [Doc.free, Bool.and_eq_true] at h
    rintro ns m i _ ⟨x, y, rfl, hx, hy⟩ e he
    rcases List.mem_append.1 he with he | he
    · exact iha h.1 _ _ _ _ hx e he
    · exact ihb h.2 _ _ _ _ hy e he
  | alt a b iha ihb =>
    simp only [Doc.free, Bool.and_eq_true] at h
    rintro ns m i _ (hx | hx)
    · exact iha h.1 _ _ _ _ hx
    · exact ihb h.2 _ _ _ _ hx
  | tok t => intro ns m i x hx e he; cases hx; simp at he; subst he; rfl
  | comment t => intro ns m i x hx e he; cases hx; simp at he; subst he; rfl
  | suffix l t => intro ns m i x hx e he; cases hx; simp at he; subst he; rfl
  | space => intro ns m i x hx e he; cases hx; simp at he; subst he; rfl
  | pad => cases h
  | line l =>
    intro ns m i x hx e he
    have hx : x = layLine ns m i l := hx
    subst hx
    cases l <;> simp only [layLine] at he <;> (try split at he) <;> simp at he <;> subst he <;> rfl
  | rnl => cases h
  | indent d ih => intro ns m i x hx; exact ih h _ _ _ _ hx
  | group ex d ih => rintro ns m i x ⟨m', -, hx⟩; exact ih h _ _ _ _ hx
  | ifBreaks d ih =>
    rintro ns m i x (⟨-, hx⟩ | ⟨-, rfl⟩)
    · exact ih h _ _ _ _ hx
    · intro e he; cases he
  | noSoft d ih => rintro ns m i x ⟨m', hx, -⟩; exact ih h _ _ _ _ hx
  | cell d ih => cases h
  | verb es => cases h

@[simp] theorem free_cat (a b : Doc) : (a ⊹ b).free = (a.free && b.free) := rfl
@[simp] theorem free_tokDoc (t : Token) : (tokDoc t).free = true := rfl
@[simp] theorem free_tok (t : Tok) : (Doc.tok t).free = true := rfl
@[simp] theorem free_comment (t : List Byte) : (Doc.comment t).free = true := rfl
@[simp] theorem free_suffix (l : Option Bool) (t : List Byte) : (Doc.suffix l t).free = true := rfl
@[simp] theorem free_nil : Doc.nil.free = true := rfl
@[simp] theorem free_space : Doc.space.free = true := rfl
@[simp] theorem free_line (l : Line) : (Doc.line l).free = true := rfl
@[simp] theorem free_indent (d : Doc) : (Doc.indent d).free = d.free := rfl
@[simp] theorem free_group (b : Bool) (d : Doc) : (Doc.group b d).free = d.free := rfl
@[simp] theorem free_ifBreaks (d : Doc) : (Doc.ifBreaks d).free = d.free := rfl
@[simp] theorem free_noSoft (d : Doc) : (Doc.noSoft d).free = d.free := rfl
@[simp] theorem free_alt (a b : Doc) : (Doc.alt a b).free = (a.free && b.free) := rfl
@[simp] theorem free_softBlock (d : Doc) : (softBlock d).free = d.free := by simp [softBlock]
@[simp] theorem free_hardBlock (d : Doc) : (hardBlock d).free = d.free := by simp [hardBlock]
@[simp] theorem free_spaceBlock (d : Doc) : (spaceBlock d).free = d.free := by simp [spaceBlock]
@[simp] theorem free_maybeSpace (b : Bool) : (maybeSpace b).free = true := by cases b <;> rfl
@[simp] theorem free_stmtSep (n : Nat) : (stmtSep false n).free = true := by
  unfold stmtSep; simp only [Bool.false_eq_true, if_false]; split <;> rfl
theorem free_ite (c : Prop) [Decidable c] (a b : Doc) (ha : a.free = true) (hb : b.free = true) :
    (if c then a else b).free = true := by split <;> assumption
theorem free_bodyDoc (a b : Bool) (d : Doc) (h : d.free = true) : (bodyDoc a b d).free = true := by
  cases a
  · cases b <;> simp [bodyDoc, braceDoc, h]
  · exact h

@[simp] theorem free_leading : ∀ cs, (leadingDoc cs).free = true
  | [] => rfl
  | c :: cs => by simp [leadingDoc, free_leading cs]
@[simp] theorem free_trailing : ∀ cs n, (trailingDoc n cs).free = true
  | [], _ => rfl
  | c :: cs, n => by simp [trailingDoc, free_trailing cs]
@[simp] theorem free_danglingComments : ∀ cs, (danglingComments cs).free = true
  | [] => rfl
  | [c] => rfl
  | c :: d :: cs => by simp [danglingComments, free_danglingComments (d :: cs)]
@[simp] theorem free_danglingSoft (cs : List Comment) : (danglingSoft cs).free = true := by
  unfold danglingSoft; exact free_ite _ _ _ rfl (by simp)
@[simp] theorem free_danglingHard (cs : List Comment) : (danglingHard cs).free = true := by
  unfold danglingHard; exact free_ite _ _ _ rfl (by simp)
@[simp] theorem free_nodeDoc (a : Ann) (d e : Doc) : (nodeDoc a d e).free = (d.free && e.free) := by
  simp [nodeDoc]

/-! ## Lists -/

structure ItemDoc.Free (d : ItemDoc) : Prop where
  doc : d.doc.free = true
  grouped : d.grouped.free = true

theorem free_sepDoc (d : ItemDoc) : d.sepDoc.free = true := by
  unfold ItemDoc.sepDoc; split <;> rfl

theorem ItemDoc.Free.full {d : ItemDoc} (h : d.Free) : d.full.free = true := by
  simp [ItemDoc.full, h.doc, free_sepDoc]

theorem free_catAll {ds : List ItemDoc} (h : ∀ d ∈ ds, d.Free) :
    (catAll (ds.map ItemDoc.full)).free = true := by
  induction ds with
  | nil => rfl
  | cons d ds ih => simp [catAll, (h d (by simp)).full, ih fun e he => h e (by simp [he])]

theorem free_argsTail {ds : List ItemDoc} (h : ∀ d ∈ ds, d.Free) : (argsTail ds).free = true := by
  induction ds with
  | nil => rfl
  | cons d ds ih => simp [argsTail, (h d (by simp)).full, ih fun e he => h e (by simp [he])]

theorem free_argsJoin {ds : List ItemDoc} (h : ∀ d ∈ ds, d.Free) : (argsJoin ds).free = true := by
  cases ds with
  | nil => rfl
  | cons d ds =>
    simp [argsJoin, (h d (by simp)).full, free_argsTail (ds := ds) fun e he => h e (by simp [he])]

theorem free_paramsTail {ds : List ItemDoc} (h : ∀ d ∈ ds, d.Free) : (paramsTail ds).free = true := by
  induction ds with
  | nil => rfl
  | cons d ds ih => simp [paramsTail, (h d (by simp)).full, ih fun e he => h e (by simp [he])]

theorem free_paramsJoin {ds : List ItemDoc} (h : ∀ d ∈ ds, d.Free) : (paramsJoin ds).free = true := by
  cases ds with
  | nil => rfl
  | cons d ds =>
    simp [paramsJoin, (h d (by simp)).full, free_paramsTail (ds := ds) fun e he => h e (by simp [he])]

theorem free_groupedJoin (ex single : Bool) {ds : List ItemDoc} (h : ∀ d ∈ ds, d.Free) :
    (groupedJoin ex single ds).free = true := by
  match ds, h with
  | [], _ => rfl
  | [d], h =>
    have hd := h d (by simp)
    have : ((if single then d.doc else d.grouped) ⊹ d.sepDoc).free = true := by
      cases single <;> simp [hd.doc, hd.grouped, free_sepDoc]
    simp only [groupedJoin]
    cases ex <;> exact this
  | d :: e :: ds, h =>
    simp [groupedJoin, (h d (by simp)).full, free_groupedJoin ex single
      (ds := e :: ds) fun x hx => h x (by simp at hx ⊢; exact .inr hx)]

theorem free_testJoin {ds : List ItemDoc} (h : ∀ d ∈ ds, d.Free) : (testJoin ds).free = true := by
  match ds, h with
  | [], _ => rfl
  | [d], h => exact (h d (by simp)).full
  | d :: e :: ds, h =>
    simp [testJoin, (h d (by simp)).full, free_testJoin
      (ds := e :: ds) fun x hx => h x (by simp at hx ⊢; exact .inr hx)]

theorem free_brokenOut (ex : Bool) (l r : Token) {holes args : List ItemDoc}
    (h : ∀ d ∈ holes, d.Free) (h' : ∀ d ∈ args, d.Free) :
    (brokenOut ex l holes args r).free = true := by
  have h1 := free_argsJoin h'
  simp only [brokenOut, free_group, free_cat, free_tokDoc, free_catAll h, free_maybeSpace,
    Bool.true_and, Bool.and_true]
  exact free_ite _ _ _ rfl (free_ite _ _ _ h1 (by simp [h1]))

theorem free_argsDoc {o : Opts} {k : CallKind} {aa : Ann} (l : Token)
    (items : Items) {ds : List ItemDoc} (h : ∀ d ∈ ds, d.Free) (r : Token) :
    (argsDoc o k aa l items ds r).free = true := by
  have ht : ∀ d ∈ ds.takeWhile ItemDoc.isHole, d.Free := fun d hd =>
    h d ((List.takeWhile_prefix _).subset hd)
  have hd : ∀ d ∈ ds.dropWhile ItemDoc.isHole, d.Free := fun d hd =>
    h d ((List.dropWhile_suffix _).subset hd)
  unfold argsDoc
  refine free_ite _ _ _ (by simp) (free_ite _ _ _ (by simp [free_testJoin h]) ?_)
  refine free_ite _ _ _ (free_brokenOut _ _ _ ht hd) (free_ite _ _ _ (free_brokenOut _ _ _ ht hd)
    (free_ite _ _ _ ?_ (free_brokenOut _ _ _ ht hd)))
  simp [groupedArgs, free_catAll ht, free_groupedJoin _ _ hd, free_brokenOut true l r ht hd]

theorem free_paramsDoc {o : Opts} {pa : Ann} (l : Token) {ds : List ItemDoc}
    (h : ∀ d ∈ ds, d.Free) (r : Token) : (paramsDoc o pa l ds r).free = true := by
  unfold paramsDoc
  rw [free_nodeDoc]
  cases ds with
  | nil => simp
  | cons d ds => simp [free_paramsJoin h]

theorem free_bracedDoc {cx : Cx} {a : Ann} (l : Token) (es : Exprs) {d : Doc} (hd : d.free = true)
    (r : Token) : (bracedDoc cx a l es d r).free = true := by
  unfold bracedDoc
  split
  · simp
  · split <;> simp [hd]

theorem free_wrapDoc {o : Opts} {cx : Cx} {e : Expr} {d : Doc} (h : e.ordinary o = true)
    (hd : d.free = true) : (wrapDoc o cx e d).free = true := by
  unfold wrapDoc
  rw [ordinary_suppressed h]
  split
  · simp [hd]
  · simp only [Bool.false_eq_true, if_false, free_nodeDoc, hd, Bool.true_and]
    exact free_ite _ _ _ rfl (by simp)

theorem argAnn_ordinary {o : Opts} {x : Arg} (h : x.ordinary o = true) : x.ann.ordinary o = true := by
  cases x <;> simp_all [Arg.ordinary, Arg.ann]

theorem free_argDoc {o : Opts} {dir : Bool} {x : Arg} {d : Doc} (h : x.ordinary o = true)
    (hd : d.free = true) : (argDoc o dir x d).free = true := by
  unfold argDoc
  rw [ordinary_dir (argAnn_ordinary h) dir (.inl rfl)]
  simp [hd]

variable {o : Opts}

mutual
theorem free_fmt : ∀ (e : Expr) (cx : Cx), e.ordinary o = true → cx.table ≠ some true →
    (fmt o cx e).free = true
  | .atom a k t, cx, h, _ => by rw [fmt]; exact free_wrapDoc h rfl
  | .str a p c l, cx, h, _ => by cases c <;> simp only [fmt] <;> exact free_wrapDoc h rfl
  | .paren a l e r, cx, h, _ => by
    rw [fmt]
    refine free_wrapDoc h ?_
    simp only [Expr.ordinary, Bool.and_eq_true] at h
    have h1 := free_fmt e (bodyCx cx) h.2 (by simp [bodyCx])
    simp only [free_cat, free_tokDoc, Bool.true_and, Bool.and_true]
    exact free_ite _ _ _ (by simp [h1]) h1
  | .braced a l es r, cx, h, _ => by
    rw [fmt]
    refine free_wrapDoc h ?_
    simp only [Expr.ordinary, Bool.and_eq_true] at h
    exact free_bracedDoc l es (free_fmtExprs es cx true h.2) r
  | .unary a p e, cx, h, _ => by
    rw [fmt]
    refine free_wrapDoc h ?_
    simp only [Expr.ordinary, Bool.and_eq_true] at h
    have h1 := free_fmt e (if p.kind = .wat then bodyCx cx else plainCx cx) h.2
      (by split <;> simp [bodyCx, plainCx])
    simp only [free_cat, free_tokDoc, free_maybeSpace, Bool.true_and]
    exact free_ite _ _ _ (by simp [h1]) h1
  | .binary a x p y, cx, h, _ => by
    rw [fmt]
    refine free_wrapDoc h ?_
    simp only [Expr.ordinary, Bool.and_eq_true] at h
    have hx := fun cx ht => free_fmt x cx h.1.2 ht
    have hy := fun cx ht => free_fmt y cx h.2 ht
    have h0 : (opCx cx p.kind).table ≠ some true := by simp [opCx]
    refine free_ite _ _ _ (by simp [hx _ h0, hy _ h0]) (free_ite _ _ _ ?_ (free_ite _ _ _ ?_ ?_))
    · rw [ordinary_dir h.1.1 _ (.inr rfl)]
      have h2 := hy { opCx cx p.kind with aligned := assignBreak o p.kind y, table := none } (by simp)
      simp only [free_group, free_cat, free_space, free_tok, hx _ h0, Bool.true_and]
      refine free_ite _ _ _ ?_ ?_
      · simp only [free_indent, free_cat, free_line, Bool.true_and]
        exact h2
      · simp only [free_cat, free_space, Bool.true_and]
        exact h2
    · have h1 : ({ opCx cx p.kind with chain := true, aligned := cx.aligned } : Cx).table ≠ some true := by
        simp [opCx]
      refine free_ite _ _ _ ?_ ?_ <;> simp only [free_group, free_cat, hx _ h1, Bool.true_and] <;>
        exact free_ite _ _ _ (by simp [chainPiece, hy _ h0]) (by simp [chainPiece, hy _ h0])
    · simp [hx _ h0, hy _ h0]
  | .sel a k x p y, cx, h, _ => by
    rw [fmt]
    refine free_wrapDoc h ?_
    simp only [Expr.ordinary, Bool.and_eq_true] at h
    have h0 : (plainCx cx).table ≠ some true := by simp [plainCx]
    simp [free_fmt x _ h.1.2 h0, free_fmt y _ h.2 h0]
  | .call a k f aa l items r, cx, h, hc => by
    rw [fmt]
    refine free_wrapDoc h ?_
    simp only [Expr.ordinary, Bool.and_eq_true, Bool.not_eq_true'] at h
    have hf := free_fmt f (plainCx cx) h.1.2 (by simp [plainCx])
    have hi := free_fmtItems items { inArg := true } true h.2 (by simp)
    have h5 : hasDirective o cx.dir a .table = false := ordinary_dir h.1.1.1 _ (.inr rfl)
    have h7 : cx.table.getD false = false := by
      rcases hh : cx.table with _ | b
      · rfl
      · cases b
        · rfl
        · exact absurd hh hc
    simp only [h5, (listed_setting h.1.1.2).2, Bool.or_false, h7, free_cat, hf, Bool.true_and, free_nodeDoc,
      free_nil, Bool.and_true]
    simp only [Bool.false_eq_true, and_false, if_false]
    exact free_argsDoc l items hi r
  | .func a kw pa l items r b, cx, h, _ => by
    rw [fmt]
    refine free_wrapDoc h ?_
    simp only [Expr.ordinary, Bool.and_eq_true] at h
    have hi := free_fmtItems items (plainCx cx) false h.1.2 (by simp [plainCx])
    have hb := free_fmt b (bodyCx cx) h.2 (by simp [bodyCx])
    have hp := free_paramsDoc (o := o) (pa := pa) l hi r
    simp only [free_group, free_cat, free_tokDoc, free_space, free_bodyDoc _ _ _ hb,
      Bool.true_and, Bool.and_true]
    exact free_ite _ _ _ hp hp
  | .ite a kw l c r t, cx, h, _ => by
    rw [fmt]
    refine free_wrapDoc h ?_
    simp only [Expr.ordinary, Bool.and_eq_true] at h
    have h1 := free_fmt c (plainCx cx) h.1.2 (by simp [plainCx])
    have h2 := free_fmt t (bodyCx cx) h.2 (by simp [bodyCx])
    simp [h1, free_bodyDoc _ _ _ h2]
  | .itee a kw l c r t ea el e, cx, h, _ => by
    rw [fmt]
    refine free_wrapDoc h ?_
    simp only [Expr.ordinary, Bool.and_eq_true] at h
    have h1 := free_fmt c (plainCx cx) h.1.1.2 (by simp [plainCx])
    have h2 := free_fmt t (bodyCx cx) h.1.2 (by simp [bodyCx])
    have h3 := fun cx ht => free_fmt e cx h.2 ht
    simp only [free_group, free_cat, free_tokDoc, free_space, free_softBlock, h1,
      free_bodyDoc _ _ _ h2, Bool.true_and, Bool.and_true, free_nodeDoc, free_danglingSoft]
    exact free_bodyDoc _ _ _ (h3 _ (by simp [bodyCx]))
  | .for_ a kw l v i s r b, cx, h, _ => by
    rw [fmt]
    refine free_wrapDoc h ?_
    simp only [Expr.ordinary, Bool.and_eq_true] at h
    have h1 := free_fmt v (plainCx cx) h.1.1.2 (by simp [plainCx])
    have h2 := free_fmt s (plainCx cx) h.1.2 (by simp [plainCx])
    have h3 := free_fmt b (bodyCx cx) h.2 (by simp [bodyCx])
    simp [h1, h2, free_bodyDoc _ _ _ h3]
  | .while_ a kw l c r b, cx, h, _ => by
    rw [fmt]
    refine free_wrapDoc h ?_
    simp only [Expr.ordinary, Bool.and_eq_true] at h
    have h1 := free_fmt c (plainCx cx) h.1.2 (by simp [plainCx])
    have h2 := free_fmt b (bodyCx cx) h.2 (by simp [bodyCx])
    simp [h1, free_bodyDoc _ _ _ h2]
  | .repeat_ a kw b, cx, h, _ => by
    rw [fmt]
    refine free_wrapDoc h ?_
    simp only [Expr.ordinary, Bool.and_eq_true] at h
    have h2 := free_fmt b (bodyCx cx) h.2 (by simp [bodyCx])
    simp [free_bodyDoc _ _ _ h2]
theorem free_fmtExprs : ∀ (es : Exprs) (cx : Cx) (first : Bool), es.ordinary o = true →
    (fmtExprs o cx false first es).free = true
  | .nil, _, _, _ => rfl
  | .cons e es, cx, first, h => by
    simp only [Exprs.ordinary, Bool.and_eq_true] at h
    rw [fmtExprs]
    have h1 := free_fmt e { dir := true, eq := true, inArg := cx.inArg, effect := false || 0 < es.length } h.1
      (by simp)
    simp only [free_cat, free_fmtExprs es cx false h.2, Bool.and_true, h1]
    exact free_ite _ _ _ rfl (by simp)
theorem free_fmtItems : ∀ (xs : Items) (vcx : Cx) (dir : Bool), xs.ordinary o = true →
    vcx.table ≠ some true → ∀ d ∈ fmtItems o vcx dir xs, d.Free
  | .nil, _, _, _, _ => by intro d hd; cases hd
  | .last x, vcx, dir, h, ht => by
    intro d hd
    rw [fmtItems] at hd
    cases List.mem_singleton.1 hd
    exact ⟨free_argDoc h (free_fmtArg x _ h ht), free_argDoc h (free_fmtArg x _ h ht)⟩
  | .cons x s xs, vcx, dir, h, ht => by
    intro d hd
    simp only [Items.ordinary, Bool.and_eq_true] at h
    rw [fmtItems] at hd
    rcases List.mem_cons.1 hd with rfl | hd
    · exact ⟨free_argDoc h.1 (free_fmtArg x _ h.1 ht), free_argDoc h.1 (free_fmtArg x _ h.1 ht)⟩
    · exact free_fmtItems xs vcx dir h.2 ht d hd
theorem free_fmtArg : ∀ (x : Arg) (vcx : Cx), x.ordinary o = true → vcx.table ≠ some true →
    (fmtArg o vcx x).free = true
  | .hole _, _, _, _ => rfl
  | .val _ e, vcx, h, ht => by
    simp only [Arg.ordinary, Bool.and_eq_true] at h
    rw [fmtArg]
    exact free_fmt e vcx h.2 ht
  | .name _ na n q, vcx, h, ht => by
    simp only [Arg.ordinary, Bool.and_eq_true] at h
    rw [fmtArg]
    simp [free_fmt n (plainCx vcx) h.2 (by simp [plainCx])]
  | .named _ na n q e, vcx, h, ht => by
    simp only [Arg.ordinary, Bool.and_eq_true] at h
    rw [fmtArg]
    simp [free_fmt n (plainCx vcx) h.1.2 (by simp [plainCx]), free_fmt e vcx h.2 ht]
  | .pdef _ n da q e, vcx, h, ht => by
    simp only [Arg.ordinary, Bool.and_eq_true] at h
    rw [fmtArg]
    simp [free_fmt n (plainCx vcx) h.1.2 (by simp [plainCx]), free_fmt e vcx h.2 ht]
end

end Verif.Format
