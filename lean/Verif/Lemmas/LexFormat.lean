import Verif.Lemmas.LexFlow

/-!
# Formatted programs keep tokens apart
-/

namespace Verif.Format
open Verif.Syntax

variable {A B C : Byte → Bool} {d d' : Doc}

/-! ## Arguments -/

structure ItemFlow (x : ItemDoc) : Prop where
  doc : Flow gap x.doc close
  grouped : Flow gap x.grouped close
  fields : Flow gap x.fields close
  ann : AnnOk x.arg.ann
  sep : ∀ s, x.sep = some s → Is [.comma] s
  hole : ∀ a, x.arg = .hole a → Flow gap x.doc gap

theorem ItemFlow.sepDoc {x : ItemDoc} (h : ItemFlow x) : Flow close x.sepDoc close := by
  unfold ItemDoc.sepDoc
  split
  · rename_i s hs
    exact (flow_comma (h.sep s hs) (by decide)).closeGap
  · exact Flow.nil

theorem ItemFlow.full {x : ItemDoc} (h : ItemFlow x) : Flow gap x.full close := h.doc.cat h.sepDoc

theorem ItemFlow.holeFull {x : ItemDoc} (h : ItemFlow x) (hh : x.isHole = true) : Flow gap x.full gap := by
  unfold ItemDoc.isHole at hh
  split at hh
  · rename_i a ha
    refine (h.hole a ha).cat ?_
    unfold ItemDoc.sepDoc
    split
    · rename_i s hs
      exact flow_comma (h.sep s hs) (by decide)
    · exact Flow.nil
  · cases hh

theorem flow_holes : ∀ (xs : List ItemDoc), (∀ x ∈ xs, ItemFlow x ∧ x.isHole = true) →
    Flow gap (catAll (xs.map ItemDoc.full)) gap
  | [], _ => Flow.nil
  | x :: xs, h => (ItemFlow.holeFull (h x (List.mem_cons_self ..)).1 (h x (List.mem_cons_self ..)).2).cat
      (flow_holes xs fun y hy => h y (List.mem_cons_of_mem _ hy))

theorem flow_argsTail : ∀ (xs : List ItemDoc), (∀ x ∈ xs, ItemFlow x) → Flow close (argsTail xs) close
  | [], _ => Flow.nil
  | x :: xs, h => by
    refine Flow.cat (B := gap) ?_ (((h x (List.mem_cons_self ..)).full).cat
      (flow_argsTail xs fun y hy => h y (List.mem_cons_of_mem _ hy)))
    split
    · exact Flow.softOrSpace
    · exact Flow.empty

theorem flow_argsJoin (xs : List ItemDoc) (h : ∀ x ∈ xs, ItemFlow x) : Flow gap (argsJoin xs) close := by
  cases xs with
  | nil => exact Flow.nil.closeGap
  | cons x xs =>
    exact ((h x (List.mem_cons_self ..)).full).cat
      (flow_argsTail xs fun y hy => h y (List.mem_cons_of_mem _ hy))

theorem flow_paramsTail : ∀ (xs : List ItemDoc), (∀ x ∈ xs, ItemFlow x) → Flow close (paramsTail xs) close
  | [], _ => Flow.nil
  | x :: xs, h => by
    refine Flow.cat (B := gap) ?_ (((h x (List.mem_cons_self ..)).full).cat
      (flow_paramsTail xs fun y hy => h y (List.mem_cons_of_mem _ hy)))
    split
    · exact Flow.empty
    · exact Flow.softOrSpace

theorem flow_paramsJoin (xs : List ItemDoc) (h : ∀ x ∈ xs, ItemFlow x) : Flow gap (paramsJoin xs) close := by
  cases xs with
  | nil => exact Flow.nil.closeGap
  | cons x xs =>
    exact ((h x (List.mem_cons_self ..)).full).cat
      (flow_paramsTail xs fun y hy => h y (List.mem_cons_of_mem _ hy))

theorem flow_groupedJoin (ex single : Bool) : ∀ (xs : List ItemDoc), (∀ x ∈ xs, ItemFlow x) →
    Flow gap (groupedJoin ex single xs) close
  | [], _ => Flow.nil.closeGap
  | [x], h => by
    have hx := h x (List.mem_cons_self ..)
    have hd : Flow gap ((if single = true then x.doc else x.grouped) ⊹ x.sepDoc) close := by
      refine Flow.cat ?_ hx.sepDoc
      split
      · exact hx.doc
      · exact hx.grouped
    rw [groupedJoin]
    split
    · exact hd.group
    · exact hd
  | x :: y :: xs, h => (h x (List.mem_cons_self ..)).full.cat (Flow.softOrSpace.cat
      (flow_groupedJoin ex single (y :: xs) fun y hy => h y (List.mem_cons_of_mem _ hy)))

theorem flow_testJoin : ∀ (xs : List ItemDoc), (∀ x ∈ xs, ItemFlow x) → Flow gap (testJoin xs) close
  | [], _ => Flow.nil.closeGap
  | [x], h => (h x (List.mem_cons_self ..)).full
  | x :: y :: xs, h => (h x (List.mem_cons_self ..)).full.cat (Flow.space.cat
      (flow_testJoin (y :: xs) fun y hy => h y (List.mem_cons_of_mem _ hy)))

theorem flow_brokenOut {ex : Bool} {l r : Token} {holes args : List ItemDoc} (hl : Flow cont (tokDoc l) gap)
    (hr : Flow close (tokDoc r) cont) (hh : ∀ x ∈ holes, ItemFlow x ∧ x.isHole = true)
    (ha : ∀ x ∈ args, ItemFlow x) : Flow cont (brokenOut ex l holes args r) cont := by
  unfold brokenOut
  refine Flow.group (hl.cat ((flow_holes holes hh).cat ((flow_maybeSpace _).cat (Flow.cat (B := close) ?_ hr))))
  split
  · exact Flow.nil.closeGap
  · split
    · exact flow_argsJoin args ha
    · exact (flow_argsJoin args ha).softBlock

theorem flow_groupedArgs {l r : Token} {holes args : List ItemDoc} (hl : Flow cont (tokDoc l) gap)
    (hr : Flow close (tokDoc r) cont) (hh : ∀ x ∈ holes, ItemFlow x ∧ x.isHole = true)
    (ha : ∀ x ∈ args, ItemFlow x) : Flow cont (groupedArgs l holes args r) cont := by
  unfold groupedArgs
  simp only
  have hpre : Flow cont (tokDoc l ⊹ catAll (holes.map ItemDoc.full) ⊹
      maybeSpace (!holes.isEmpty && !args.isEmpty)) gap :=
    hl.cat ((flow_holes holes hh).cat (flow_maybeSpace _))
  exact (hpre.cat ((flow_groupedJoin _ _ args ha).cat hr)).group.alt
    ((hpre.cat ((flow_groupedJoin _ _ args ha).cat hr)).group.alt (flow_brokenOut hl hr hh ha))

theorem mem_takeWhile' {α : Type} {p : α → Bool} : ∀ {xs : List α} {x : α}, x ∈ xs.takeWhile p →
    x ∈ xs ∧ p x = true
  | y :: xs, x, h => by
    rw [List.takeWhile_cons] at h
    split at h
    · rename_i hy
      rcases List.mem_cons.1 h with rfl | h
      · exact ⟨List.mem_cons_self .., hy⟩
      · exact ⟨List.mem_cons_of_mem _ (mem_takeWhile' h).1, (mem_takeWhile' h).2⟩
    · cases h

theorem flow_args {o : Opts} {k : CallKind} {aa : Ann} {l r : Token} {items : Items} {ds : List ItemDoc}
    (haa : AnnOk aa) (hl : Flow cont (tokDoc l) gap) (hr : Flow close (tokDoc r) cont)
    (h : ∀ x ∈ ds, ItemFlow x) : Flow cont (argsDoc o k aa l items ds r) cont := by
  unfold argsDoc
  have hh : ∀ x ∈ ds.takeWhile ItemDoc.isHole, ItemFlow x ∧ x.isHole = true :=
    fun x hx => ⟨h x (mem_takeWhile' hx).1, (mem_takeWhile' hx).2⟩
  have ha : ∀ x ∈ ds.dropWhile ItemDoc.isHole, ItemFlow x :=
    fun x hx => h x ((List.dropWhile_sublist _).mem hx)
  split
  · exact hl.cat ((flow_danglingSoft _ haa.dangling).closeGap.cat hr)
  · split
    · exact hl.cat ((flow_testJoin ds h).cat hr)
    · simp only
      split
      · exact flow_brokenOut hl hr hh ha
      · split
        · exact flow_brokenOut hl hr hh ha
        · split
          · exact flow_groupedArgs hl hr hh ha
          · exact flow_brokenOut hl hr hh ha

/-! ## Tables -/

theorem flow_cell {x : ItemDoc} (h : ItemFlow x) : Flow gap (cellDoc x) anyByte := by
  unfold cellDoc
  refine Flow.pad.cat (Flow.cat (B := close) ?_ (Flow.pad.cat (Flow.cat (B := noByte) ?_ Flow.space)))
  · split
    · exact h.doc
    · exact (flow_leading _ h.ann.leading).cat (h.fields.cell.cat (flow_trailing _ _ h.ann.trailing))
  · split
    · rename_i s hs
      exact (Flow.space (B := anyByte)).cat (flow_word (h.sep s hs) (by decide))
    · exact Flow.nil.post fun _ hb => by cases hb

theorem flow_rows : ∀ (xs : List ItemDoc) (first : Bool), (∀ x ∈ xs, ItemFlow x) →
    Flow gap (tableRows first xs) gap
  | [], _, _ => Flow.nil
  | x :: xs, first, h => by
    refine Flow.cat (B := gap) ?_ ((flow_cell (h x (List.mem_cons_self ..))).every.cat
      (flow_rows xs false fun y hy => h y (List.mem_cons_of_mem _ hy)))
    split
    · split
      · exact Flow.hard
      · exact Flow.empty
    · exact Flow.nil

theorem flow_remaining (xs : List ItemDoc) (h : ∀ x ∈ xs, ItemFlow x) : Flow gap (remainingDoc xs) close := by
  cases xs with
  | nil => exact Flow.nil.closeGap
  | cons x xs => exact Flow.hard.cat (flow_argsTail _ h)

theorem flow_table {o : Opts} {k : CallKind} {aa : Ann} {l r : Token} {items : Items} {ds : List ItemDoc}
    (haa : AnnOk aa) (hl : Is [openKind k] l) (hrk : r.kind = closeKind k) (hr : Lexeme (outTok r))
    (h : ∀ x ∈ ds, ItemFlow x) (hln : Linked (l :: (items.tokens ++ [r]))) :
    Flow cont (tableDoc o aa l items ds r) cont := by
  unfold tableDoc
  have h1 := flow_callOpen hl
  have h2 := flow_callClose hrk hr
  split
  · exact flow_args haa h1 h2 h
  · refine Flow.alt (Flow.group (h1.cat (Flow.cat (B := close) (Flow.softBlock ?_) h2))) ?_
    · refine (flow_rows _ true fun x hx => h x (mem_takeWhile' hx).1).cat
        (flow_remaining _ fun x hx => h x ((List.dropWhile_sublist _).mem hx))
    · refine flow_verbatim haa (flow_raw hln ⟨l, _, rfl, hl.2.cont ?_⟩
        ⟨l :: items.tokens, r, rfl, (close_lexeme hrk hr).1.at⟩)
      rw [show (outTok l).kind = openKind k from List.mem_singleton.1 hl.1]
      cases k <;> decide

theorem flow_params {o : Opts} {pa : Ann} {l r : Token} {ds : List ItemDoc} (hpa : AnnOk pa)
    (hl : Is [.lParen] l) (hr : Is [.rParen] r) (h : ∀ x ∈ ds, ItemFlow x) :
    Flow parenByte (paramsDoc o pa l ds r) cont := by
  unfold paramsDoc
  have h1 : Flow parenByte (tokDoc l) gap := flow_lParen hl (by decide)
  refine flow_node hpa ?_ Flow.nil
  cases ds with
  | nil => exact h1.cat ((flow_danglingSoft _ hpa.dangling).cat (flow_rParen hr (by decide)))
  | cons x xs => exact Flow.group (h1.cat ((flow_paramsJoin _ h).softBlock.cat (flow_rParen hr (by decide))))

theorem flow_braced {cx : Cx} {a : Ann} {l r : Token} {es : Exprs} (ha : AnnOk a) (hl : Is [.lCurly] l)
    (hes : es.lexical) (hr : Is [.rCurly] r) (h : Flow gap d noByte) :
    Flow gap (bracedDoc cx a l es d r) cont := by
  have h1 : Flow gap (tokDoc l) gap := flow_lCurly hl (by decide)
  unfold bracedDoc
  split
  · exact h1.cat ((flow_danglingHard _ ha.dangling).cat (flow_rCurly hr (by decide)))
  · split
    · rename_i ia il ea t ir hcc
      unfold curlyCurly at hcc
      split at hcc
      · split at hcc
        · simp only [Option.some.injEq, Prod.mk.injEq] at hcc
          obtain ⟨rfl, rfl, rfl, rfl, rfl⟩ := hcc
          obtain ⟨⟨k1, k2, ⟨⟨k3, k4⟩, -⟩, k5⟩, -⟩ := hes
          refine Flow.group ((flow_leading _ k1.leading).cat (h1.cat ((flow_lCurly k2 (by decide)).cat
            (Flow.cat (B := anyByte) (Flow.spaceBlock (B := cont) ?_) ((flow_rCurly k5 rfl).cat
              ((flow_rCurly hr (by decide)).cat (flow_trailing _ _ k1.trailing)))))))
          exact flow_node k3 (flow_end (k4.ends (by decide)) (first_every _))
            (flow_danglingSoft _ k3.dangling)
        · cases hcc
      · cases hcc
    · exact h1.cat ((Flow.hardBlock (C := anyByte) (h.pre fun _ _ => rfl)).cat (flow_rCurly hr rfl))

theorem flow_assign {o : Opts} {cx : Cx} {op : Token} (h : Is binKinds op) :
    Flow anyByte (.tok (assignTok o cx op)) noByte := by
  refine Flow.tok (first_every _) ?_ (fun _ hb => by cases hb)
  have hop := holds_of h (by decide)
  unfold assignTok
  split
  · rfl
  · split
    · rfl
    · exact hop
  · exact hop

/-! ## Expressions -/

theorem lexical_ann : ∀ {e : Expr}, e.lexical → AnnOk e.ann
  | .atom .., h | .str .., h | .paren .., h | .braced .., h | .unary .., h | .binary .., h | .sel .., h
  | .call .., h | .func .., h | .ite .., h | .itee .., h | .for_ .., h | .while_ .., h | .repeat_ .., h => h.1

/-- The tokens of an argument that is kept as written. -/
theorem flow_rawArg : ∀ {x : Arg}, x.lexical → Linked x.tokens → Flow gap (.verb (rawEls x.tokens)) close
  | .hole a, _, _ => (Flow.verb Runs.nil).closeGap
  | .val a e, h, hl => (flow_rawExpr h.2 hl).closeCont
  | .name a na n q, h, hl => by
    obtain ⟨h1, -⟩ := edges n h.2.2.1
    obtain ⟨t, r, hn, h1⟩ := h1
    refine flow_raw hl ⟨t, r ++ [q], by simp [Arg.tokens, hn], h1⟩ ⟨n.tokens, q, rfl, ?_⟩
    intro u hu
    cases hu
    exact ⟨holds_of h.2.2.2 (by decide), fun b hb => h.2.2.2.2.opens
      (by rw [show (outTok q).kind = .equal from List.mem_singleton.1 h.2.2.2.1]; decide) (close_gap hb)⟩
  | .named a na n q e, h, hl => by
    obtain ⟨t, r, hn, h1⟩ := (edges n h.2.2.1).1
    obtain ⟨r', t', he, h2⟩ := (edges e h.2.2.2.2).2
    refine (flow_raw (B := cont) hl ⟨t, r ++ q :: e.tokens, by simp [Arg.tokens, hn], h1⟩
      ⟨n.tokens ++ q :: r', t', by simp [Arg.tokens, he], h2.at⟩).closeCont
  | .pdef a n da q e, h, hl => by
    obtain ⟨t, r, hn, h1⟩ := (edges n h.2.1).1
    obtain ⟨r', t', he, h2⟩ := (edges e h.2.2.2.2).2
    refine (flow_raw (B := cont) hl ⟨t, r ++ q :: e.tokens, by simp [Arg.tokens, hn], h1⟩
      ⟨n.tokens ++ q :: r', t', by simp [Arg.tokens, he], h2.at⟩).closeCont

theorem lexical_argAnn : ∀ {x : Arg}, x.lexical → AnnOk x.ann
  | .hole .., h => h
  | .val .., h | .name .., h | .named .., h | .pdef .., h => h.1

theorem flow_argDoc {o : Opts} {dir : Bool} {x : Arg} (hx : x.lexical) (hl : Linked x.tokens)
    (h : Flow gap d close) : Flow gap (argDoc o dir x d) close := by
  unfold argDoc
  split
  · exact flow_verbatim (lexical_argAnn hx) (flow_rawArg hx hl)
  · exact flow_node (lexical_argAnn hx) h (flow_danglingSoft _ (lexical_argAnn hx).dangling)

theorem flow_holeDoc {o : Opts} {dir : Bool} {a : Ann} (ha : AnnOk a) :
    Flow gap (argDoc o dir (.hole a) .nil) gap := by
  unfold argDoc
  split
  · exact flow_verbatim ha (Flow.verb Runs.nil)
  · exact flow_node ha Flow.nil (flow_danglingSoft _ ha.dangling)

/-- A keyword and the space after it. -/
theorem flow_keyword {t : Token} {k : Kind} (h : Is [k] t) (hk : k ∈ gapKinds ∧ k ≠ .stringOpen ∧
    k ≠ .stringContent) (h' : Flow anyByte d B) : Flow gap (tokDoc t ⊹ .space ⊹ d) B := by
  refine Flow.cat (B := noByte) (Flow.tok (h.gap ?_) (holds_of h ?_) (fun _ hb => by cases hb))
    (Flow.space.cat h')
  · intro k' hk'; cases List.mem_singleton.1 hk'; exact hk.1
  · intro k' hk'; cases List.mem_singleton.1 hk'; exact hk.2

/-- The condition in parentheses and the body. -/
theorem flow_cond {l r : Token} {c : Doc} (hl : Is [.lParen] l) (hr : Is [.rParen] r) (hc : Flow gap c cont)
    (h : Flow gap d B) :
    Flow anyByte (tokDoc l ⊹ .group false (softBlock c) ⊹ tokDoc r ⊹ .space ⊹ d) B :=
  (flow_lParen hl rfl).cat (hc.softBlock.group.cat ((flow_rParen hr (by decide)).cat (Flow.space.cat h)))

mutual
theorem flow_fmt (o : Opts) : ∀ (e : Expr) (cx : Cx), e.lexical → Linked e.tokens →
    Flow gap (fmt o cx e) cont
  | .atom a k t, cx, h, hl => by
    rw [fmt]
    exact flow_wrap h h.1 hl (flow_end (h.2.ends (by decide)) (h.2.gap (by decide)))
  | .str a op c cl, cx, h, hl => by
    have hs := flow_string h.2
    cases c <;> simp only [fmt] <;> exact flow_wrap h h.1 hl hs
  | .paren a l e r, cx, h, hl => by
    rw [fmt]
    have ih := flow_fmt o e (bodyCx cx) h.2.2.1 hl.tail.left
    refine flow_wrap h h.1 hl ((flow_lParen h.2.1 (by decide)).cat (Flow.cat (B := cont) ?_
      (flow_rParen h.2.2.2 (by decide))))
    split
    · exact Flow.hardBlock (ih.pre fun _ _ => rfl)
    · exact ih
  | .braced a l es r, cx, h, hl => by
    rw [fmt]
    exact flow_wrap h h.1 hl (flow_braced h.1 h.2.1 h.2.2.1 h.2.2.2
      (flow_fmtExprs o es cx false true h.2.2.1 hl.tail.left))
  | .unary a op e, cx, h, hl => by
    rw [fmt]
    have ih := flow_fmt o e (if op.kind = .wat then bodyCx cx else plainCx cx) h.2.2 hl.tail
    refine flow_wrap h h.1 hl ((flow_open h.2.1 (h.2.1.gap (by decide)) (by decide)).cat
      ((flow_maybeSpace _).cat ?_))
    split
    · exact ih.softBlock
    · exact ih
  | .binary a x op y, cx, h, hl => by
    rw [fmt]
    refine flow_wrap h h.1 hl ?_
    obtain ⟨h1, h2, h3, h4⟩ := h
    have hx := fun cx => flow_fmt o x cx h2 hl.left
    have hy := fun cx => flow_fmt o y cx h4 hl.right.tail
    have hw : Flow anyByte (tokDoc op) noByte := flow_word h3 (by decide)
    split
    · rename_i hs
      refine Flow.group ((hx _).cat (Flow.cat (B := gap) ?_ (hy _)))
      have hk : ∀ k ∈ [Kind.wat, .exponentiate, .exponentiate2, .colon], k ∈ contKinds ∧ k ∈ openKinds ∧
          k ≠ .stringOpen ∧ k ≠ .stringContent := by decide
      have hm : op.kind ∈ [Kind.wat, .exponentiate, .exponentiate2, .colon] := by
        generalize op.kind = k at hs
        cases k <;> first | (cases hs; done) | decide
      have h3 : Is [Kind.wat, .exponentiate, .exponentiate2, .colon] op := ⟨hm, h3.2⟩
      exact flow_open h3 (h3.2.cont (hk _ hm).1) (fun k hk' => (hk k hk').2)
    · split
      · simp only
        refine Flow.group ((hx _).cat (Flow.space.cat ((flow_assign h3).cat ?_)))
        split
        · exact Flow.indent (Flow.hard.cat (hy _))
        · exact Flow.space.cat (hy _)
      · split
        · simp only
          have hp : Flow cont (chainPiece op y (fmt o (opCx cx op.kind) y)) cont := by
            refine Flow.space.cat (hw.cat (Flow.cat (B := gap) ?_ (hy _)))
            split
            · exact Flow.empty
            · exact Flow.softOrSpace
          have hd : ∀ xd, Flow gap xd cont → Flow gap (xd ⊹ (if cx.aligned = true then
              chainPiece op y (fmt o (opCx cx op.kind) y) else
              .indent (chainPiece op y (fmt o (opCx cx op.kind) y)))) cont := by
            intro xd hxd
            refine hxd.cat ?_
            split
            · exact hp
            · exact hp.indent
          split
          · exact hd _ (hx _)
          · exact (hd _ (hx _)).group
        · exact Flow.group ((hx _).cat (Flow.space.cat (hw.cat (Flow.indent (Flow.softOrSpace.cat (hy _))))))
  | .sel a k x op y, cx, h, hl => by
    rw [fmt]
    refine flow_wrap h h.1 hl ?_
    obtain ⟨h1, h2, h3, h4⟩ := h
    have hk : ∀ k ∈ selKinds, k ∈ contKinds := by decide
    exact Flow.group ((flow_fmt o x _ h2 hl.left).cat ((flow_open h3 (h3.2.cont (hk _ h3.1)) (by decide)).cat
      (flow_fmt o y _ h4 hl.right.tail)))
  | .call a k f aa l items r, cx, h, hl => by
    rw [fmt]
    refine flow_wrap h h.1 hl ?_
    obtain ⟨h1, h2, h3, h4, h5, h6, h7⟩ := h
    have hi := flow_items o items { inArg := true } true h5 hl.right.tail.left
    refine (flow_fmt o f _ h2 hl.left).cat (flow_node h3 ?_ Flow.nil)
    split
    · exact flow_table h3 h4 h6 h7 hi hl.right
    · exact flow_args h3 (flow_callOpen h4) (flow_callClose h6 h7) hi
  | .func a kw pa l items r b, cx, h, hl => by
    rw [fmt]
    refine flow_wrap h h.1 hl ?_
    obtain ⟨h1, h2, h3, h4, h5, h6, h7⟩ := h
    have hi := flow_items o items (plainCx cx) false h5 hl.tail.tail.left
    have hb := flow_fmt o b (bodyCx cx) h7 hl.tail.tail.right.tail
    have hkw : Flow gap (tokDoc kw) parenByte := by
      refine Flow.tok (h2.gap (by decide)) (holds_of h2 (by decide)) ?_
      intro b hb
      have hb : b = 40 := by simpa [parenByte] using hb
      subst hb
      have hk : kw.kind = .functionKw ∨ kw.kind = .backslash := by
        have := h2.1
        simpa using this
      rcases hk with hk | hk
      · exact h2.2.ends (by rw [show (outTok kw).kind = _ from hk]; decide) (by decide)
      · exact h2.2.opens (by rw [show (outTok kw).kind = _ from hk]; decide) (by decide)
    have hps : Flow parenByte (paramsDoc o pa l (fmtItems o (plainCx cx) false items) r) cont :=
      flow_params h3 h4 h6 hi
    refine Flow.group (hkw.cat (Flow.cat (B := cont) ?_ (Flow.space.cat (flow_body hb))))
    split
    · exact hps.noSoft
    · exact hps
  | .ite a kw l c r t, cx, h, hl => by
    rw [fmt]
    refine flow_wrap h h.1 hl ?_
    obtain ⟨h1, h2, h3, h4, h5, h6⟩ := h
    exact Flow.group (flow_keyword h2 (by decide) (flow_cond h3 h5 (flow_fmt o c _ h4 hl.tail.tail.left)
      (flow_body (flow_fmt o t _ h6 hl.tail.tail.right.tail))))
  | .itee a kw l c r t ea el e, cx, h, hl => by
    rw [fmt]
    refine flow_wrap h h.1 hl ?_
    obtain ⟨h1, h2, h3, h4, h5, h6, h7, h8, h9⟩ := h
    have he := fun cx => flow_fmt o e cx h9 hl.tail.tail.right.tail.right.tail
    refine Flow.group (flow_keyword h2 (by decide) (flow_cond h3 h5 (flow_fmt o c _ h4 hl.tail.tail.left)
      ((flow_body (flow_fmt o t _ h6 hl.tail.tail.right.tail.left)).cat (Flow.space.cat
        (flow_node h7 (flow_keyword h8 (by decide) ?_) (flow_danglingSoft _ h7.dangling))))))
    exact (flow_body (he _)).pre fun _ _ => rfl
  | .for_ a kw l v i s r b, cx, h, hl => by
    rw [fmt]
    refine flow_wrap h h.1 hl ?_
    obtain ⟨h1, h2, h3, h4, h5, h6, h7, h8⟩ := h
    exact Flow.group (flow_keyword h2 (by decide) ((flow_lParen h3 rfl).cat
      ((flow_fmt o v _ h4 hl.tail.tail.left).cat (Flow.space.cat ((flow_word h5 (by decide)).cat
        (Flow.space.cat ((flow_fmt o s _ h6 hl.tail.tail.right.tail.left).cat ((flow_rParen h7 (by decide)).cat
          (Flow.space.cat (flow_body (flow_fmt o b _ h8 hl.tail.tail.right.tail.right.tail)))))))))))
  | .while_ a kw l c r b, cx, h, hl => by
    rw [fmt]
    refine flow_wrap h h.1 hl ?_
    obtain ⟨h1, h2, h3, h4, h5, h6⟩ := h
    exact Flow.group (flow_keyword h2 (by decide) (flow_cond h3 h5 (flow_fmt o c _ h4 hl.tail.tail.left)
      (flow_body (flow_fmt o b _ h6 hl.tail.tail.right.tail))))
  | .repeat_ a kw b, cx, h, hl => by
    rw [fmt]
    refine flow_wrap h h.1 hl ?_
    exact Flow.group (flow_keyword h.2.1 (by decide) ((flow_body (flow_fmt o b _ h.2.2 hl.tail)).pre
      fun _ _ => rfl))
theorem flow_fmtExprs (o : Opts) : ∀ (es : Exprs) (cx : Cx) (top first : Bool), es.lexical →
    Linked es.tokens → Flow (if first = true then gap else noByte) (fmtExprs o cx top first es) noByte
  | .nil, cx, top, first, _, _ => by
    rw [fmtExprs]
    exact Flow.nil.post fun _ hb => by cases hb
  | .cons e es, cx, top, first, h, hl => by
    rw [fmtExprs]
    have he := flow_fmt o e { dir := true, eq := true, inArg := cx.inArg, effect := top || 0 < es.length }
      h.1 hl.left
    have ih := flow_fmtExprs o es cx top false h.2 hl.right
    refine Flow.cat (B := gap) ?_ (he.cat ih.from)
    cases first
    · exact flow_sep _ _
    · exact Flow.nil
theorem flow_items (o : Opts) : ∀ (xs : Items) (vcx : Cx) (dir : Bool), xs.lexical → Linked xs.tokens →
    ∀ x ∈ fmtItems o vcx dir xs, ItemFlow x
  | .nil, vcx, dir, _, _ => by
    intro x hx
    rw [fmtItems] at hx
    cases hx
  | .last x, vcx, dir, h, hl => by
    have ih := fun vcx => flow_argDoc (o := o) (dir := dir) h hl (flow_arg o x vcx h hl)
    intro y hy
    rw [fmtItems] at hy
    cases List.mem_singleton.1 hy
    refine ⟨ih _, ih _, flow_arg o x vcx h hl, lexical_argAnn h, (fun s hs => by cases hs), ?_⟩
    intro a ha
    have ha : x = .hole a := ha
    subst ha
    exact flow_holeDoc h
  | .cons x s xs, vcx, dir, h, hl => by
    have ih := fun vcx => flow_argDoc (o := o) (dir := dir) h.1 hl.left (flow_arg o x vcx h.1 hl.left)
    intro y hy
    rw [fmtItems] at hy
    rcases List.mem_cons.1 hy with hy | hy
    · rw [hy]
      refine ⟨ih _, ih _, flow_arg o x vcx h.1 hl.left, lexical_argAnn h.1, ?_, ?_⟩
      · intro s' hs
        cases hs
        exact h.2.1
      · intro a ha
        have ha : x = .hole a := ha
        have h1 := h.1
        rw [ha] at h1 ⊢
        exact flow_holeDoc h1
    · exact flow_items o xs vcx dir h.2.2 hl.right.tail y hy
theorem flow_arg (o : Opts) : ∀ (x : Arg) (vcx : Cx), x.lexical → Linked x.tokens →
    Flow gap (fmtArg o vcx x) close
  | .hole a, vcx, h, hl => by
    rw [fmtArg]
    exact Flow.nil.closeGap
  | .val a e, vcx, h, hl => by
    rw [fmtArg]
    exact (flow_fmt o e vcx h.2 hl).closeCont
  | .name a na n q, vcx, h, hl => by
    rw [fmtArg]
    exact (flow_node h.2.1 ((flow_fmt o n _ h.2.2.1 hl.left).cat (Flow.space.cat
      (flow_word h.2.2.2 (by decide)))) (flow_danglingSoft _ h.2.1.dangling)).cat Flow.space
  | .named a na n q e, vcx, h, hl => by
    rw [fmtArg]
    exact (flow_node h.2.1 ((flow_fmt o n _ h.2.2.1 hl.left).cat (Flow.space.cat
      (flow_word h.2.2.2.1 (by decide)))) (flow_danglingSoft _ h.2.1.dangling)).cat (Flow.space.cat
        (flow_fmt o e vcx h.2.2.2.2 hl.right.tail).closeCont)
  | .pdef a n da q e, vcx, h, hl => by
    rw [fmtArg]
    exact (flow_fmt o n _ h.2.1 hl.left).cat (Flow.space.cat (flow_node (A := anyByte) h.2.2.1
      ((flow_word h.2.2.2.1 (by decide)).cat (Flow.space.cat
        (flow_fmt o e vcx h.2.2.2.2 hl.right.tail).closeCont)) (flow_danglingSoft _ h.2.2.1.dangling)))
end

theorem flow_root {o : Opts} {x : Root} (ha : AnnOk x.ann) (h : x.es.lexical) (hl : Linked x.es.tokens)
    (hs : rootSuppressed o x.es = false) : Flow gap (fmtRoot o x) noByte := by
  unfold fmtRoot
  rw [if_neg (by rw [hs]; decide)]
  exact flow_node ha ((flow_fmtExprs o x.es {} true true h hl).cat Flow.hard) (flow_danglingSoft _ ha.dangling)

end Verif.Format
