import Verif.Model.FormatRules

/-!
# Where printed texts come from

Every piece of text in a layout of a file is the text of a token, of a comment or of a blank of the file, or a brace
or operator that is written by a rule.
-/

namespace Verif.Format
open Verif.Syntax

/-- The text of an element. -/
def El.sane (P : List Byte → Prop) : El → Prop
  | .tok t => P t.text
  | .comment t | .suffix _ _ t | .blank t => P t
  | _ => True

/-- The texts that a document can print. -/
def Doc.sane (P : List Byte → Prop) : Doc → Prop
  | .cat a b | .alt a b => a.sane P ∧ b.sane P
  | .tok t => P t.text
  | .comment t | .suffix _ t => P t
  | .indent d | .group _ d | .ifBreaks d | .noSoft d | .cell d => d.sane P
  | .verb es => ∀ e ∈ es, e.sane P
  | _ => True

/-- The texts that rules write themselves. -/
structure Fixed (P : List Byte → Prop) : Prop where
  lBrace : P [123]
  rBrace : P [125]
  arrow : P [60, 45]
  equal : P [61]
  blank : ∀ n, P (List.replicate n 32)

/-- The texts of a token and the trivia around it. -/
structure TokSane (P : List Byte → Prop) (t : Token) : Prop where
  text : P (outTok t).text
  leading : ∀ p ∈ t.leading, p.kind ≠ .newline → P p.text
  trailing : ∀ p ∈ t.trailing, p.kind ≠ .newline → P p.text

variable {P : List Byte → Prop}

theorem pieceEl_sane {p : Piece} (h : p.kind ≠ .newline → P p.text) : (pieceEl p).sane P := by
  unfold pieceEl
  split
  · trivial
  · rename_i hk; exact h (by rw [hk]; decide)
  · rename_i hk; exact h (by rw [hk]; decide)

theorem rawEls_sane : ∀ (ts : List Token), (∀ t ∈ ts, TokSane P t) → ∀ e ∈ rawEls ts, e.sane P
  | [], _, e, he => by cases he
  | [t], h, e, he => by
    rw [rawEls, List.mem_singleton] at he
    subst he
    exact (h t (by simp)).text
  | t :: u :: ts, h, e, he => by
    have ht := h t (by simp)
    have hu := h u (by simp)
    rw [rawEls] at he
    simp only [List.mem_cons, List.mem_append, List.mem_map] at he
    rcases he with rfl | (⟨p, hp, rfl⟩ | ⟨p, hp, rfl⟩) | he
    · exact ht.text
    · exact pieceEl_sane (ht.trailing p hp)
    · exact pieceEl_sane (hu.leading p hp)
    · exact rawEls_sane (u :: ts) (fun t ht => h t (List.mem_cons_of_mem _ ht)) e he

theorem rawFile_sane {ts : List Token} {eof : Token} (h : ∀ t ∈ ts, TokSane P t)
    (h' : ∀ p ∈ eof.leading, p.kind ≠ .newline → P p.text) : ∀ e ∈ rawFile ts eof, e.sane P := by
  intro e he
  simp only [rawFile, List.mem_append, List.mem_flatMap, List.mem_map, List.mem_singleton] at he
  rcases he with ⟨t, ht, (⟨p, hp, rfl⟩ | rfl) | ⟨p, hp, rfl⟩⟩ | ⟨p, hp, rfl⟩
  · exact pieceEl_sane ((h t ht).leading p hp)
  · exact (h t ht).text
  · exact pieceEl_sane ((h t ht).trailing p hp)
  · exact pieceEl_sane (h' p hp)

theorem leadingDoc_sane : ∀ (cs : List Comment), (∀ c ∈ cs, P c.text) → (leadingDoc cs).sane P
  | [], _ => trivial
  | c :: cs, h => ⟨h c (by simp), trivial, leadingDoc_sane cs fun c hc => h c (List.mem_cons_of_mem _ hc)⟩

theorem trailingDoc_sane : ∀ (cs : List Comment) (n : Nat), (∀ c ∈ cs, P c.text) → (trailingDoc n cs).sane P
  | [], _, _ => trivial
  | c :: cs, _, h => ⟨h c (by simp), trailingDoc_sane cs _ fun c hc => h c (List.mem_cons_of_mem _ hc)⟩

theorem danglingComments_sane : ∀ (cs : List Comment), (∀ c ∈ cs, P c.text) → (danglingComments cs).sane P
  | [], _ => trivial
  | [c], h => h c (by simp)
  | c :: d :: cs, h =>
    ⟨h c (by simp), trivial, danglingComments_sane (d :: cs) fun c hc => h c (List.mem_cons_of_mem _ hc)⟩

theorem danglingSoft_sane {cs : List Comment} (h : ∀ c ∈ cs, P c.text) : (danglingSoft cs).sane P := by
  unfold danglingSoft
  split
  · trivial
  · exact ⟨⟨trivial, danglingComments_sane cs h⟩, trivial⟩

theorem danglingHard_sane {cs : List Comment} (h : ∀ c ∈ cs, P c.text) : (danglingHard cs).sane P := by
  unfold danglingHard
  split
  · trivial
  · exact ⟨⟨trivial, danglingComments_sane cs h⟩, trivial⟩

theorem Ann.leading_all {a : Ann} (h : ∀ c ∈ a.all, P c.text) : ∀ c ∈ a.leading, P c.text := fun c hc =>
  h c (by simp [Ann.all, hc])
theorem Ann.dangling_all {a : Ann} (h : ∀ c ∈ a.all, P c.text) : ∀ c ∈ a.dangling, P c.text := fun c hc =>
  h c (by simp [Ann.all, hc])
theorem Ann.trailing_all {a : Ann} (h : ∀ c ∈ a.all, P c.text) : ∀ c ∈ a.trailing, P c.text := fun c hc =>
  h c (by simp [Ann.all, hc])

theorem nodeDoc_sane {a : Ann} {f d : Doc} (ha : ∀ c ∈ a.all, P c.text) (hf : f.sane P) (hd : d.sane P) :
    (nodeDoc a f d).sane P :=
  ⟨leadingDoc_sane _ (Ann.leading_all ha), hf, hd, trailingDoc_sane _ _ (Ann.trailing_all ha)⟩

theorem verbatimDoc_sane {a : Ann} {ts : List Token} (ha : ∀ c ∈ a.all, P c.text) (h : ∀ t ∈ ts, TokSane P t) :
    (verbatimDoc a ts).sane P :=
  ⟨leadingDoc_sane _ fun c hc => Ann.leading_all ha c ((List.takeWhile_sublist _).subset hc), rawEls_sane ts h,
    trailingDoc_sane _ _ fun c hc => Ann.trailing_all ha c ((List.dropWhile_sublist _).subset hc)⟩

theorem ann_comments (e : Expr) : ∀ c ∈ e.ann.all, c ∈ e.comments := by
  intro c hc
  cases e <;> simp only [Expr.ann, Expr.comments, List.mem_append] at hc ⊢ <;> simp [hc]

theorem ann_comments_arg (x : Arg) : ∀ c ∈ x.ann.all, c ∈ x.comments := by
  intro c hc
  cases x <;> simp only [Arg.ann, Arg.comments, List.mem_append] at hc ⊢ <;> simp [hc]

theorem wrapDoc_sane {o : Opts} {cx : Cx} {e : Expr} {d : Doc} (ht : ∀ t ∈ e.tokens, TokSane P t)
    (hc : ∀ c ∈ e.comments, P c.text) (hd : d.sane P) : (wrapDoc o cx e d).sane P := by
  have ha : ∀ c ∈ e.ann.all, P c.text := fun c h => hc c (ann_comments e c h)
  unfold wrapDoc
  split
  · exact ⟨hd, trailingDoc_sane _ _ (Ann.trailing_all ha)⟩
  · split
    · exact verbatimDoc_sane ha ht
    · refine nodeDoc_sane ha hd ?_
      split
      · trivial
      · exact danglingSoft_sane (Ann.dangling_all ha)

theorem argDoc_sane {o : Opts} {dir : Bool} {x : Arg} {d : Doc} (ht : ∀ t ∈ x.tokens, TokSane P t)
    (hc : ∀ c ∈ x.comments, P c.text) (hd : d.sane P) : (argDoc o dir x d).sane P := by
  have ha : ∀ c ∈ x.ann.all, P c.text := fun c h => hc c (ann_comments_arg x c h)
  unfold argDoc
  split
  · exact verbatimDoc_sane ha ht
  · exact nodeDoc_sane ha hd (danglingSoft_sane (Ann.dangling_all ha))

theorem bodyDoc_sane (hb : Fixed P) {as force : Bool} {d : Doc} (hd : d.sane P) : (bodyDoc as force d).sane P := by
  unfold bodyDoc braceDoc
  split
  · exact hd
  · split
    · exact ⟨hb.lBrace, ⟨⟨trivial, hd⟩, trivial⟩, hb.rBrace⟩
    · exact ⟨hb.lBrace, ⟨⟨trivial, hd⟩, trivial⟩, hb.rBrace⟩

/-- An entry of an argument list. -/
structure ItemSane (P : List Byte → Prop) (x : ItemDoc) : Prop where
  doc : x.doc.sane P
  grouped : x.grouped.sane P
  fields : x.fields.sane P
  ann : ∀ c ∈ x.arg.ann.all, P c.text
  sep : x.sepDoc.sane P

theorem full_sane {x : ItemDoc} (h : ItemSane P x) : x.full.sane P := ⟨h.doc, h.sep⟩

theorem argsTail_sane : ∀ {ds : List ItemDoc}, (∀ d ∈ ds, ItemSane P d) → (argsTail ds).sane P
  | [], _ => trivial
  | d :: ds, h => ⟨trivial, full_sane (h d (by simp)), argsTail_sane fun e he => h e (List.mem_cons_of_mem _ he)⟩

theorem argsJoin_sane : ∀ {ds : List ItemDoc}, (∀ d ∈ ds, ItemSane P d) → (argsJoin ds).sane P
  | [], _ => trivial
  | d :: ds, h => ⟨full_sane (h d (by simp)), argsTail_sane fun e he => h e (List.mem_cons_of_mem _ he)⟩

theorem paramsTail_sane : ∀ {ds : List ItemDoc}, (∀ d ∈ ds, ItemSane P d) → (paramsTail ds).sane P
  | [], _ => trivial
  | d :: ds, h => ⟨trivial, full_sane (h d (by simp)), paramsTail_sane fun e he => h e (List.mem_cons_of_mem _ he)⟩

theorem catAll_sane : ∀ {ds : List ItemDoc}, (∀ d ∈ ds, ItemSane P d) → (catAll (ds.map ItemDoc.full)).sane P
  | [], _ => trivial
  | d :: ds, h => ⟨full_sane (h d (by simp)), catAll_sane fun e he => h e (List.mem_cons_of_mem _ he)⟩

theorem testJoin_sane : ∀ {ds : List ItemDoc}, (∀ d ∈ ds, ItemSane P d) → (testJoin ds).sane P
  | [], _ => trivial
  | [d], h => full_sane (h d (by simp))
  | d :: e :: ds, h =>
    ⟨full_sane (h d (by simp)), trivial, testJoin_sane (ds := e :: ds) fun e he => h e (List.mem_cons_of_mem _ he)⟩

theorem groupedJoin_sane {ex single : Bool} : ∀ {ds : List ItemDoc}, (∀ d ∈ ds, ItemSane P d) →
    (groupedJoin ex single ds).sane P
  | [], _ => trivial
  | [d], h => by
    have hd := h d (by simp)
    have : ((if single then d.doc else d.grouped) ⊹ d.sepDoc).sane P := by
      refine ⟨?_, hd.sep⟩
      split
      · exact hd.doc
      · exact hd.grouped
    rw [groupedJoin]
    split
    · exact this
    · exact this
  | d :: e :: ds, h =>
    ⟨full_sane (h d (by simp)), trivial, groupedJoin_sane (ds := e :: ds) fun e he => h e (List.mem_cons_of_mem _ he)⟩

theorem maybeSpace_sane (b : Bool) : (maybeSpace b).sane P := by cases b <;> trivial

theorem brokenOut_sane {ex : Bool} {l r : Token} {holes args : List ItemDoc} (hl : TokSane P l) (hr : TokSane P r)
    (h : ∀ d ∈ holes, ItemSane P d) (h' : ∀ d ∈ args, ItemSane P d) : (brokenOut ex l holes args r).sane P := by
  refine ⟨hl.text, catAll_sane h, maybeSpace_sane _, ?_, hr.text⟩
  split
  · trivial
  · split
    · exact argsJoin_sane h'
    · exact ⟨⟨trivial, argsJoin_sane h'⟩, trivial⟩

theorem argsDoc_sane {o : Opts} {k : CallKind} {aa : Ann} {l r : Token} {items : Items} {ds : List ItemDoc}
    (ha : ∀ c ∈ aa.all, P c.text) (hl : TokSane P l) (hr : TokSane P r) (h : ∀ d ∈ ds, ItemSane P d) :
    (argsDoc o k aa l items ds r).sane P := by
  have hh : ∀ d ∈ ds.takeWhile ItemDoc.isHole, ItemSane P d := fun d hd => h d ((List.takeWhile_sublist _).subset hd)
  have ha' : ∀ d ∈ ds.dropWhile ItemDoc.isHole, ItemSane P d := fun d hd => h d ((List.dropWhile_sublist _).subset hd)
  unfold argsDoc
  split
  · exact ⟨hl.text, danglingSoft_sane (Ann.dangling_all ha), hr.text⟩
  · split
    · exact ⟨hl.text, testJoin_sane h, hr.text⟩
    · dsimp only
      split
      · exact brokenOut_sane hl hr hh ha'
      · split
        · exact brokenOut_sane hl hr hh ha'
        · split
          · exact ⟨⟨⟨hl.text, catAll_sane hh, maybeSpace_sane _⟩, groupedJoin_sane ha', hr.text⟩,
              ⟨⟨hl.text, catAll_sane hh, maybeSpace_sane _⟩, groupedJoin_sane ha', hr.text⟩,
              brokenOut_sane hl hr hh ha'⟩
          · exact brokenOut_sane hl hr hh ha'

theorem cellDoc_sane {x : ItemDoc} (h : ItemSane P x) : (cellDoc x).sane P := by
  refine ⟨trivial, ?_, trivial, ?_, trivial⟩
  · split
    · exact h.doc
    · exact ⟨leadingDoc_sane _ (Ann.leading_all h.ann), h.fields, trailingDoc_sane _ _ (Ann.trailing_all h.ann)⟩
  · have := h.sep
    unfold ItemDoc.sepDoc at this
    split
    · rename_i hs; rw [hs] at this; exact ⟨trivial, this⟩
    · trivial

theorem tableRows_sane : ∀ {ds : List ItemDoc} (first : Bool), (∀ d ∈ ds, ItemSane P d) → (tableRows first ds).sane P
  | [], _, _ => trivial
  | d :: ds, first, h => by
    refine ⟨?_, cellDoc_sane (h d (by simp)), tableRows_sane false fun e he => h e (List.mem_cons_of_mem _ he)⟩
    split <;> trivial

theorem remainingDoc_sane {ds : List ItemDoc} (h : ∀ d ∈ ds, ItemSane P d) : (remainingDoc ds).sane P := by
  cases ds with
  | nil => trivial
  | cons d ds => exact ⟨trivial, argsTail_sane h⟩

theorem tableDoc_sane {o : Opts} {aa : Ann} {l r : Token} {items : Items} {ds : List ItemDoc}
    (ha : ∀ c ∈ aa.all, P c.text) (hl : TokSane P l) (hr : TokSane P r) (hi : ∀ t ∈ items.tokens, TokSane P t)
    (h : ∀ d ∈ ds, ItemSane P d) : (tableDoc o aa l items ds r).sane P := by
  unfold tableDoc
  split
  · exact argsDoc_sane ha hl hr h
  · refine ⟨⟨hl.text, ⟨⟨trivial, tableRows_sane _ fun d hd => h d ((List.takeWhile_sublist _).subset hd),
      remainingDoc_sane fun d hd => h d ((List.dropWhile_sublist _).subset hd)⟩, trivial⟩, hr.text⟩,
      verbatimDoc_sane ha ?_⟩
    intro t ht
    simp only [List.mem_cons, List.mem_append, List.not_mem_nil, or_false] at ht
    rcases ht with rfl | ht | rfl
    · exact hl
    · exact hi t ht
    · exact hr

theorem paramsDoc_sane {o : Opts} {pa : Ann} {l r : Token} {ds : List ItemDoc} (ha : ∀ c ∈ pa.all, P c.text)
    (hl : TokSane P l) (hr : TokSane P r) (h : ∀ d ∈ ds, ItemSane P d) : (paramsDoc o pa l ds r).sane P := by
  refine nodeDoc_sane ha ?_ trivial
  cases ds with
  | nil => exact ⟨hl.text, danglingSoft_sane (Ann.dangling_all ha), hr.text⟩
  | cons d ds =>
    exact ⟨hl.text, ⟨⟨trivial, full_sane (h d (by simp)), paramsTail_sane fun e he => h e (List.mem_cons_of_mem _ he)⟩,
      trivial⟩, hr.text⟩

theorem curlyCurly_sane {b : Bool} {es : Exprs} {ia : Ann} {il : Token} {ea : Ann} {t ir : Token}
    (h : curlyCurly b es = some (ia, il, ea, t, ir)) (ht : ∀ t ∈ es.tokens, TokSane P t)
    (hc : ∀ c ∈ es.comments, P c.text) : (∀ c ∈ ia.all, P c.text) ∧ TokSane P il ∧ (∀ c ∈ ea.all, P c.text) ∧
      TokSane P t ∧ TokSane P ir := by
  unfold curlyCurly at h
  split at h
  · split at h
    · cases h
      simp only [Exprs.tokens, Expr.tokens, Exprs.comments, Expr.comments, List.mem_append, List.mem_cons,
        List.not_mem_nil, or_false] at ht hc
      exact ⟨fun c h => hc c (.inl h), ht _ (.inl rfl), fun c h => hc c (.inr h), ht _ (.inr (.inl rfl)),
        ht _ (.inr (.inr rfl))⟩
    · cases h
  · cases h

theorem bracedDoc_sane {cx : Cx} {a : Ann} {l r : Token} {es : Exprs} {d : Doc} (ha : ∀ c ∈ a.all, P c.text)
    (hl : TokSane P l) (hr : TokSane P r) (ht : ∀ t ∈ es.tokens, TokSane P t) (hc : ∀ c ∈ es.comments, P c.text)
    (hd : d.sane P) : (bracedDoc cx a l es d r).sane P := by
  unfold bracedDoc
  split
  · exact ⟨hl.text, danglingHard_sane (Ann.dangling_all ha), hr.text⟩
  · split
    · rename_i h
      obtain ⟨h1, h2, h3, h4, h5⟩ := curlyCurly_sane h ht hc
      exact ⟨leadingDoc_sane _ (Ann.leading_all h1), hl.text, h2.text,
        ⟨⟨trivial, nodeDoc_sane h3 h4.text (danglingSoft_sane (Ann.dangling_all h3))⟩, trivial⟩,
        h5.text, hr.text, trailingDoc_sane _ _ (Ann.trailing_all h1)⟩
    · exact ⟨hl.text, ⟨⟨trivial, hd⟩, trivial⟩, hr.text⟩

theorem stmtSep_sane (d : Bool) (n : Nat) : (stmtSep d n).sane P := by
  unfold stmtSep
  split
  · split
    · exact ⟨trivial, trivial⟩
    · split <;> trivial
  · split <;> trivial

theorem assignTok_sane (hb : Fixed P) {o : Opts} {cx : Cx} {t : Token} (h : TokSane P t) : P (assignTok o cx t).text := by
  unfold assignTok
  split
  · exact hb.arrow
  · split
    · exact hb.equal
    · exact h.text
  · exact h.text

local macro "part" h:ident h':ident : tactic =>
  `(tactic| (intro _ hm; first
    | (refine $h _ ?_; simp only [Expr.tokens, Exprs.tokens, Items.tokens, Arg.tokens, List.mem_append, List.mem_cons]; simp [hm]; done)
    | (refine $h' _ ?_; simp only [Expr.comments, Exprs.comments, Items.comments, Arg.comments, List.mem_append]; simp [hm]; done)))
local macro "tk" h:ident : tactic =>
  `(tactic| (refine $h _ ?_; simp [Expr.tokens, Exprs.tokens, Items.tokens, Arg.tokens]; done))

mutual
theorem fmt_sane (hb : Fixed P) (o : Opts) : ∀ (cx : Cx) (e : Expr), (∀ t ∈ e.tokens, TokSane P t) →
    (∀ c ∈ e.comments, P c.text) → (fmt o cx e).sane P
  | cx, .atom a k t, h, h' => by
    rw [fmt]; exact wrapDoc_sane h h' (h t (by simp [Expr.tokens])).text
  | cx, .str a op c cl, h, h' => by
    have h1 := (h op (by simp [Expr.tokens])).text
    have h2 := (h cl (by simp [Expr.tokens])).text
    cases c with
    | none => rw [fmt]; exact wrapDoc_sane h h' ⟨h1, trivial, h2⟩
    | some t => rw [fmt]; exact wrapDoc_sane h h' ⟨h1, (h t (by simp [Expr.tokens])).text, h2⟩
  | cx, .paren a l e r, h, h' => by
    have he := fmt_sane hb o (bodyCx cx) e (by part h h') (by part h h')
    rw [fmt]
    refine wrapDoc_sane h h' ⟨(h l (by simp [Expr.tokens])).text, ?_, (h r (by simp [Expr.tokens])).text⟩
    split
    · exact ⟨⟨trivial, he⟩, trivial⟩
    · exact he
  | cx, .braced a l es r, h, h' => by
    rw [fmt]
    exact wrapDoc_sane h h' (bracedDoc_sane (by part h h') (by tk h) (by tk h) (by part h h') (by part h h')
      (fmtExprs_sane hb o cx false true es (by part h h') (by part h h')))
  | cx, .unary a op e, h, h' => by
    have he := fmt_sane hb o (if op.kind = .wat then bodyCx cx else plainCx cx) e (by part h h') (by part h h')
    rw [fmt]
    refine wrapDoc_sane h h' ⟨(h op (by simp [Expr.tokens])).text, maybeSpace_sane _, ?_⟩
    split
    · exact ⟨⟨trivial, he⟩, trivial⟩
    · exact he
  | cx, .binary a x op y, h, h' => by
    have hx := fun cx => fmt_sane hb o cx x (by part h h') (by part h h')
    have hy := fun cx => fmt_sane hb o cx y (by part h h') (by part h h')
    have hop : TokSane P op := by tk h
    rw [fmt]
    refine wrapDoc_sane h h' ?_
    split
    · exact ⟨hx _, hop.text, hy _⟩
    · split
      · refine ⟨hx _, trivial, assignTok_sane hb hop, ?_⟩
        split
        · exact ⟨trivial, hy _⟩
        · exact ⟨trivial, hy _⟩
      · split
        · have hp : (chainPiece op y (fmt o (opCx cx op.kind) y)).sane P := ⟨trivial, hop.text, trivial, hy _⟩
          have : ∀ d : Doc, d = (fmt o { opCx cx op.kind with chain := true, aligned := cx.aligned } x ⊹
              (if cx.aligned = true then chainPiece op y (fmt o (opCx cx op.kind) y)
               else .indent (chainPiece op y (fmt o (opCx cx op.kind) y)))) → d.sane P := by
            intro d hd
            rw [hd]
            refine ⟨hx _, ?_⟩
            split
            · exact hp
            · exact hp
          dsimp only
          split
          · exact this _ rfl
          · rw [Doc.sane]; exact this _ rfl
        · exact ⟨hx _, trivial, hop.text, trivial, hy _⟩
  | cx, .sel a k x op y, h, h' => by
    rw [fmt]
    exact wrapDoc_sane h h' ⟨fmt_sane hb o _ x (by part h h') (by part h h'), (h op (by simp [Expr.tokens])).text,
      fmt_sane hb o _ y (by part h h') (by part h h')⟩
  | cx, .call a k f aa l items r, h, h' => by
    rw [fmt]
    have hi := fmtItems_sane hb o { inArg := true } true items (by part h h') (by part h h')
    have haa : ∀ c ∈ aa.all, P c.text := by part h h'
    have hl : TokSane P l := by tk h
    have hr : TokSane P r := by tk h
    refine wrapDoc_sane h h' ⟨fmt_sane hb o _ f (by part h h') (by part h h'), nodeDoc_sane haa ?_ trivial⟩
    split
    · exact tableDoc_sane haa hl hr (by part h h') hi
    · exact argsDoc_sane haa hl hr hi
  | cx, .func a kw pa l items r b, h, h' => by
    rw [fmt]
    have hi := fmtItems_sane hb o (plainCx cx) false items (by part h h') (by part h h')
    have hps : (paramsDoc o pa l (fmtItems o (plainCx cx) false items) r).sane P :=
      paramsDoc_sane (by part h h') (by tk h) (by tk h) hi
    refine wrapDoc_sane h h' ⟨(h kw (by simp [Expr.tokens])).text, ?_, trivial,
      bodyDoc_sane hb (fmt_sane hb o _ b (by part h h') (by part h h'))⟩
    split
    · exact hps
    · exact hps
  | cx, .ite a kw l c r t, h, h' => by
    rw [fmt]
    exact wrapDoc_sane h h' ⟨(h kw (by simp [Expr.tokens])).text, trivial, (h l (by simp [Expr.tokens])).text,
      ⟨⟨trivial, fmt_sane hb o _ c (by part h h') (by part h h')⟩, trivial⟩, (h r (by simp [Expr.tokens])).text,
      trivial, bodyDoc_sane hb (fmt_sane hb o _ t (by part h h') (by part h h'))⟩
  | cx, .itee a kw l c r t ea el e, h, h' => by
    rw [fmt]
    have hea : ∀ c ∈ ea.all, P c.text := by part h h'
    exact wrapDoc_sane h h' ⟨(h kw (by simp [Expr.tokens])).text, trivial, (h l (by simp [Expr.tokens])).text,
      ⟨⟨trivial, fmt_sane hb o _ c (by part h h') (by part h h')⟩, trivial⟩, (h r (by simp [Expr.tokens])).text,
      trivial, bodyDoc_sane hb (fmt_sane hb o _ t (by part h h') (by part h h')), trivial,
      nodeDoc_sane hea ⟨(h el (by simp [Expr.tokens])).text, trivial,
        bodyDoc_sane hb (fmt_sane hb o _ e (by part h h') (by part h h'))⟩ (danglingSoft_sane (Ann.dangling_all hea))⟩
  | cx, .for_ a kw l v i s r b, h, h' => by
    rw [fmt]
    exact wrapDoc_sane h h' ⟨(h kw (by simp [Expr.tokens])).text, trivial, (h l (by simp [Expr.tokens])).text,
      fmt_sane hb o _ v (by part h h') (by part h h'), trivial, (h i (by simp [Expr.tokens])).text, trivial,
      fmt_sane hb o _ s (by part h h') (by part h h'), (h r (by simp [Expr.tokens])).text, trivial,
      bodyDoc_sane hb (fmt_sane hb o _ b (by part h h') (by part h h'))⟩
  | cx, .while_ a kw l c r b, h, h' => by
    rw [fmt]
    exact wrapDoc_sane h h' ⟨(h kw (by simp [Expr.tokens])).text, trivial, (h l (by simp [Expr.tokens])).text,
      ⟨⟨trivial, fmt_sane hb o _ c (by part h h') (by part h h')⟩, trivial⟩, (h r (by simp [Expr.tokens])).text,
      trivial, bodyDoc_sane hb (fmt_sane hb o _ b (by part h h') (by part h h'))⟩
  | cx, .repeat_ a kw b, h, h' => by
    rw [fmt]
    exact wrapDoc_sane h h' ⟨(h kw (by simp [Expr.tokens])).text, trivial,
      bodyDoc_sane hb (fmt_sane hb o _ b (by part h h') (by part h h'))⟩
theorem fmtExprs_sane (hb : Fixed P) (o : Opts) (cx : Cx) (top : Bool) : ∀ (first : Bool) (es : Exprs),
    (∀ t ∈ es.tokens, TokSane P t) → (∀ c ∈ es.comments, P c.text) → (fmtExprs o cx top first es).sane P
  | _, .nil, _, _ => trivial
  | first, .cons e es, h, h' => by
    rw [fmtExprs]
    refine ⟨?_, fmt_sane hb o _ e (by part h h') (by part h h'),
      fmtExprs_sane hb o cx top false es (by part h h') (by part h h')⟩
    split
    · trivial
    · exact stmtSep_sane _ _
theorem fmtItems_sane (hb : Fixed P) (o : Opts) (vcx : Cx) (dir : Bool) : ∀ (xs : Items),
    (∀ t ∈ xs.tokens, TokSane P t) → (∀ c ∈ xs.comments, P c.text) → ∀ d ∈ fmtItems o vcx dir xs, ItemSane P d
  | .nil, _, _, d, hd => by cases hd
  | .last x, h, h', d, hd => by
    rw [fmtItems, List.mem_singleton] at hd
    subst hd
    have hx := fun cx => fmtArg_sane hb o cx x h h'
    exact ⟨argDoc_sane h h' (hx _), argDoc_sane h h' (hx _), hx _, fun c hc => h' c (ann_comments_arg x c hc), trivial⟩
  | .cons x s xs, h, h', d, hd => by
    rw [fmtItems] at hd
    have ht : ∀ t ∈ x.tokens, TokSane P t := by part h h'
    have hc : ∀ c ∈ x.comments, P c.text := by part h h'
    have hx := fun cx => fmtArg_sane hb o cx x ht hc
    rcases List.mem_cons.mp hd with rfl | hd
    · exact ⟨argDoc_sane ht hc (hx _), argDoc_sane ht hc (hx _), hx _, fun c h => hc c (ann_comments_arg x c h),
        (h s (by simp [Items.tokens])).text⟩
    · exact fmtItems_sane hb o vcx dir xs (by part h h') (by part h h') d hd
theorem fmtArg_sane (hb : Fixed P) (o : Opts) : ∀ (vcx : Cx) (x : Arg), (∀ t ∈ x.tokens, TokSane P t) →
    (∀ c ∈ x.comments, P c.text) → (fmtArg o vcx x).sane P
  | _, .hole _, _, _ => trivial
  | vcx, .val _ e, h, h' => by
    rw [fmtArg]; exact fmt_sane hb o vcx e (by part h h') (by part h h')
  | vcx, .name _ na n q, h, h' => by
    rw [fmtArg]
    have hna : ∀ c ∈ na.all, P c.text := by part h h'
    exact ⟨nodeDoc_sane hna ⟨fmt_sane hb o _ n (by part h h') (by part h h'), trivial,
      (h q (by simp [Arg.tokens])).text⟩ (danglingSoft_sane (Ann.dangling_all hna)), trivial⟩
  | vcx, .named _ na n q e, h, h' => by
    rw [fmtArg]
    have hna : ∀ c ∈ na.all, P c.text := by part h h'
    exact ⟨nodeDoc_sane hna ⟨fmt_sane hb o _ n (by part h h') (by part h h'), trivial,
      (h q (by simp [Arg.tokens])).text⟩ (danglingSoft_sane (Ann.dangling_all hna)), trivial,
      fmt_sane hb o _ e (by part h h') (by part h h')⟩
  | vcx, .pdef _ n da q e, h, h' => by
    rw [fmtArg]
    have hda : ∀ c ∈ da.all, P c.text := by part h h'
    exact ⟨fmt_sane hb o _ n (by part h h') (by part h h'), trivial,
      nodeDoc_sane hda ⟨(h q (by simp [Arg.tokens])).text, trivial, fmt_sane hb o _ e (by part h h') (by part h h')⟩
        (danglingSoft_sane (Ann.dangling_all hda))⟩
end

theorem fmtRoot_sane (hb : Fixed P) (o : Opts) (x : Root) (ht : ∀ t ∈ x.es.tokens, TokSane P t)
    (he : ∀ p ∈ x.eof.leading, p.kind ≠ .newline → P p.text) (ha : ∀ c ∈ x.ann.all, P c.text)
    (hc : ∀ c ∈ x.es.comments, P c.text) : (fmtRoot o x).sane P := by
  unfold fmtRoot
  split
  · exact rawFile_sane ht he
  · exact nodeDoc_sane ha ⟨fmtExprs_sane hb o _ _ _ _ ht hc, trivial⟩ (danglingSoft_sane (Ann.dangling_all ha))

/-! ## Layouts -/

theorem layLine_sane (ns : Bool) (m : Mode) (i : Nat) (l : Line) : ∀ e ∈ layLine ns m i l, e.sane P := by
  intro e he
  cases l <;> simp only [layLine] at he
  · split at he
    · cases he
    · rw [List.mem_singleton.1 he]; trivial
  · split at he <;> (rw [List.mem_singleton.1 he]; trivial)
  · rw [List.mem_singleton.1 he]; trivial
  · rw [List.mem_singleton.1 he]; trivial

/-- Every element of a layout has a text of the document. -/
theorem lays_sane (hb : Fixed P) : ∀ {d : Doc} {ns : Bool} {m : Mode} {i : Nat} {es : List El}, d.sane P →
    Lays ns m i d es → ∀ e ∈ es, e.sane P := by
  intro d
  induction d with
  | nil => intro ns m i es _ h e he; rw [show es = [] from h] at he; cases he
  | cat a b iha ihb =>
    rintro ns m i es ⟨h1, h2⟩ ⟨x, y, rfl, hx, hy⟩ e he
    rcases List.mem_append.1 he with he | he
    · exact iha h1 hx e he
    · exact ihb h2 hy e he
  | tok t => intro ns m i es h hl e he; rw [show es = _ from hl, List.mem_singleton] at he; subst he; exact h
  | comment t => intro ns m i es h hl e he; rw [show es = _ from hl, List.mem_singleton] at he; subst he; exact h
  | suffix l t => intro ns m i es h hl e he; rw [show es = _ from hl, List.mem_singleton] at he; subst he; exact h
  | space => intro ns m i es h hl e he; rw [show es = _ from hl, List.mem_singleton] at he; subst he; trivial
  | pad =>
    rintro ns m i es h ⟨n, rfl⟩ e he
    unfold padEls at he
    split at he
    · cases he
    · rw [List.mem_singleton] at he; subst he; exact hb.blank n
  | line l => intro ns m i es h hl; rw [show es = _ from hl]; exact layLine_sane ns m i l
  | rnl => intro ns m i es h hl e he; rw [show es = _ from hl, List.mem_singleton] at he; subst he; trivial
  | indent d ih => intro ns m i es h hl; exact ih h hl
  | group ex d ih => rintro ns m i es h ⟨m', -, hl⟩; exact ih h hl
  | ifBreaks d ih =>
    rintro ns m i es h (⟨-, hl⟩ | ⟨-, rfl⟩)
    · exact ih h hl
    · intro e he; cases he
  | noSoft d ih => rintro ns m i es h ⟨m', hl, -⟩; exact ih h hl
  | alt a b iha ihb =>
    rintro ns m i es ⟨h1, h2⟩ (hl | hl)
    · exact iha h1 hl
    · exact ihb h2 hl
  | cell d ih =>
    rintro ns m i es h ⟨x, m', hl, -, rfl⟩ e he
    have hx := ih h hl
    rcases List.mem_append.1 he with he | he
    · exact hx e (List.mem_filter.1 he).1
    · obtain ⟨a, ha, he⟩ := List.mem_flatMap.1 he
      have := hx a ha
      cases a with
      | suffix l i t =>
        simp only [List.mem_cons, List.not_mem_nil, or_false] at he
        rcases he with rfl | rfl
        · trivial
        · exact this
      | _ => cases he
  | verb x => intro ns m i es h hl; rw [show es = x from hl]; exact h

end Verif.Format
