import Verif.Lemmas.FormatToks

/-!
# Every document of the formatter has a layout

`lay` computes one: every group that may choose is printed flat (`wide`) or expanded. It is used to
show that the statements about layouts are not vacuous, and in examples.
-/

namespace Verif.Format
open Verif.Syntax

/-- Does the element expand the groups around it (`propagate_expand` of biome_formatter)? Forced line
breaks and comments at the end of a line do; best-fitting elements and texts printed on their own
do not pass it on. -/
def Doc.breaks : Doc → Bool
  | .cat a b => a.breaks || b.breaks
  | .line .hard | .line .empty | .rnl | .suffix .. | .comment _ => true
  | .indent d | .ifBreaks d => d.breaks
  | .group ex d => ex || d.breaks
  | .verb x => x.any (fun e => e.isNl || !e.isInline)
  | _ => false

/-- A layout: the first or last variant of every best-fitting element, groups flat if `wide` unless
something in them expands them. -/
def lay (wide first ns : Bool) (m : Mode) (i : Nat) : Doc → List El
  | .nil => []
  | .cat a b => lay wide first ns m i a ++ lay wide first ns m i b
  | .tok t => [.tok t]
  | .comment t => [.comment t]
  | .suffix l t => [.suffix l i t]
  | .space => [.space]
  | .pad => []
  | .line l => layLine ns m i l
  | .rnl => [.rnl]
  | .indent d => lay wide first ns m (i + 1) d
  | .group ex d => lay wide first ns (if wide && !ex && !d.breaks then .flat else .expanded) i d
  | .ifBreaks d => if m = .expanded then lay wide first ns m i d else []
  | .noSoft d => lay wide first true m i d
  | .alt a b => if first then lay wide first ns m i a else lay wide first ns m i b
  | .cell d => inlineSuffixes (lay wide first true .flat 0 d)
  | .verb x => x

/-- The elements that may refuse to be laid out do not. -/
def fine (wide first ns : Bool) (m : Mode) (i : Nat) : Doc → Bool
  | .cat a b => fine wide first ns m i a && fine wide first ns m i b
  | .indent d => fine wide first ns m (i + 1) d
  | .group ex d => fine wide first ns (if wide && !ex && !d.breaks then .flat else .expanded) i d
  | .ifBreaks d => fine wide first ns m i d
  | .noSoft d => fine wide first true m i d && (lay wide first true m i d).all El.isInline && !d.willBreak
  | .alt a b => if first then fine wide first ns m i a else fine wide first ns m i b
  | .cell d => fine wide first true .flat 0 d && !(lay wide first true .flat 0 d).any El.isNl
  | _ => true

theorem lay_lays (wide first : Bool) (d : Doc) : ∀ (ns : Bool) (m : Mode) (i : Nat),
    fine wide first ns m i d = true → Lays ns m i d (lay wide first ns m i d) := by
  induction d with
  | cat a b iha ihb =>
    intro ns m i h
    simp only [fine, Bool.and_eq_true] at h
    exact ⟨_, _, rfl, iha ns m i h.1, ihb ns m i h.2⟩
  | group ex d ih =>
    intro ns m i h
    refine ⟨_, fun _ hx => ?_, ih _ _ i h⟩
    simp [hx]
  | ifBreaks d ih =>
    intro ns m i h
    cases m with
    | flat => exact .inr ⟨rfl, by simp [lay]⟩
    | expanded => exact .inl ⟨rfl, by simpa [lay] using ih ns .expanded i h⟩
  | indent d ih => intro ns m i h; exact ih ns m (i + 1) h
  | noSoft d ih =>
    intro ns m i h
    simp only [fine, Bool.and_eq_true] at h
    exact ⟨m, ih true m i h.1.1, h.1.2, by simpa using h.2⟩
  | cell d ih =>
    intro ns m i h
    simp only [fine, Bool.and_eq_true] at h
    exact ⟨_, .flat, ih true .flat 0 h.1, by simpa using h.2, rfl⟩
  | alt a b iha ihb =>
    intro ns m i h
    cases first with
    | true => exact .inl (iha ns m i h)
    | false => exact .inr (ihb ns m i h)
  | pad => intro ns m i _; exact ⟨0, rfl⟩
  | _ => intros; rfl

/-- No element that may refuse to be laid out, except in variants that are not the last one. -/
def Doc.solid : Doc → Bool
  | .cat a b => a.solid && b.solid
  | .indent d | .group _ d | .ifBreaks d => d.solid
  | .noSoft _ | .cell _ => false
  | .alt _ b => b.solid
  | _ => true

theorem Doc.solid.fine {d : Doc} (wide : Bool) : ∀ (ns : Bool) (m : Mode) (i : Nat),
    d.solid = true → Format.fine wide false ns m i d = true := by
  induction d with
  | cat a b iha ihb =>
    intro ns m i h
    simp only [Doc.solid, Bool.and_eq_true] at h
    simp [Format.fine, iha _ _ _ h.1, ihb _ _ _ h.2]
  | group ex d ih => intro ns m i h; exact ih _ _ i h
  | ifBreaks d ih => intro ns m i h; exact ih _ _ i h
  | indent d ih => intro ns m i h; exact ih _ _ _ h
  | noSoft d ih => intro m i ns h; cases h
  | cell d ih => intro m i ns h; cases h
  | alt a b _ ihb => intro ns m i h; exact ihb _ _ i h
  | _ => intros; rfl

/-! ## Documents of the formatter -/

theorem leadingDoc_solid (cs : List Comment) : (leadingDoc cs).solid = true := by
  induction cs with
  | nil => rfl
  | cons c cs ih => simp [leadingDoc, Doc.solid, ih]

theorem trailingDoc_solid (cs : List Comment) (n : Nat) : (trailingDoc n cs).solid = true := by
  induction cs generalizing n with
  | nil => rfl
  | cons c cs ih => simp [trailingDoc, Doc.solid, ih]

theorem danglingComments_solid : (cs : List Comment) → (danglingComments cs).solid = true
  | [] => rfl
  | [c] => rfl
  | c :: d :: cs => by simp [danglingComments, Doc.solid, danglingComments_solid (d :: cs)]

theorem danglingSoft_solid (cs : List Comment) : (danglingSoft cs).solid = true := by
  unfold danglingSoft
  split <;> simp [softBlock, Doc.solid, danglingComments_solid]

theorem danglingHard_solid (cs : List Comment) : (danglingHard cs).solid = true := by
  unfold danglingHard
  split <;> simp [hardBlock, Doc.solid, danglingComments_solid]

theorem nodeDoc_solid {a : Ann} {f d : Doc} (hf : f.solid = true) (hd : d.solid = true) :
    (nodeDoc a f d).solid = true := by
  simp [nodeDoc, Doc.solid, leadingDoc_solid, trailingDoc_solid, hf, hd]

theorem verbatimDoc_solid (a : Ann) (ts : List Token) : (verbatimDoc a ts).solid = true := by
  simp [verbatimDoc, Doc.solid, leadingDoc_solid, trailingDoc_solid]

theorem wrapDoc_solid {o : Opts} {cx : Cx} {e : Expr} {d : Doc} (hd : d.solid = true) :
    (wrapDoc o cx e d).solid = true := by
  unfold wrapDoc
  split
  · simp [Doc.solid, trailingDoc_solid, hd]
  · split
    · exact verbatimDoc_solid _ _
    · refine nodeDoc_solid hd ?_
      split
      · rfl
      · exact danglingSoft_solid _

theorem argDoc_solid {o : Opts} {dir : Bool} {x : Arg} {d : Doc} (hd : d.solid = true) :
    (argDoc o dir x d).solid = true := by
  unfold argDoc
  split
  · exact verbatimDoc_solid _ _
  · exact nodeDoc_solid hd (danglingSoft_solid _)

theorem braceDoc_solid {force : Bool} {d : Doc} (hd : d.solid = true) :
    (braceDoc force d).solid = true := by
  unfold braceDoc
  split <;> simp [hardBlock, softBlock, Doc.solid, hd]

theorem bodyDoc_solid {as force : Bool} {d : Doc} (hd : d.solid = true) :
    (bodyDoc as force d).solid = true := by
  unfold bodyDoc
  split
  · exact hd
  · exact braceDoc_solid hd

theorem full_solid {x : ItemDoc} (h : x.doc.solid = true) : x.full.solid = true := by
  unfold ItemDoc.full ItemDoc.sepDoc
  cases x.sep <;> simp [Doc.solid, tokDoc, h]

theorem argsTail_solid {ds : List ItemDoc} (h : ∀ d ∈ ds, d.doc.solid = true) :
    (argsTail ds).solid = true := by
  induction ds with
  | nil => rfl
  | cons d ds ih =>
    simp [argsTail, Doc.solid, full_solid (h d (by simp)), ih fun e he => h e (by simp [he])]

theorem argsJoin_solid {ds : List ItemDoc} (h : ∀ d ∈ ds, d.doc.solid = true) :
    (argsJoin ds).solid = true := by
  cases ds with
  | nil => rfl
  | cons d ds =>
    simp [argsJoin, Doc.solid, full_solid (h d (by simp)),
      argsTail_solid (ds := ds) fun e he => h e (by simp [he])]

theorem paramsTail_solid {ds : List ItemDoc} (h : ∀ d ∈ ds, d.doc.solid = true) :
    (paramsTail ds).solid = true := by
  induction ds with
  | nil => rfl
  | cons d ds ih =>
    simp [paramsTail, Doc.solid, full_solid (h d (by simp)), ih fun e he => h e (by simp [he])]

theorem catAll_solid {ds : List ItemDoc} (h : ∀ d ∈ ds, d.doc.solid = true) :
    (catAll (ds.map ItemDoc.full)).solid = true := by
  induction ds with
  | nil => rfl
  | cons d ds ih =>
    simp [catAll, Doc.solid, full_solid (h d (by simp)), ih fun e he => h e (by simp [he])]

theorem testJoin_solid : (ds : List ItemDoc) → (∀ d ∈ ds, d.doc.solid = true) →
    (testJoin ds).solid = true
  | [], _ => rfl
  | [d], h => full_solid (h d (by simp))
  | d :: e :: ds, h => by
    simp [testJoin, Doc.solid, full_solid (h d (by simp)),
      testJoin_solid (e :: ds) fun x hx => h x (List.mem_cons_of_mem _ hx)]

theorem brokenOut_solid {ex : Bool} {l r : Token} {holes args : List ItemDoc}
    (h : ∀ d ∈ holes, d.doc.solid = true) (h' : ∀ d ∈ args, d.doc.solid = true) :
    (brokenOut ex l holes args r).solid = true := by
  unfold brokenOut maybeSpace
  simp only [Doc.solid, tokDoc, catAll_solid h, Bool.true_and, Bool.and_true]
  have h1 : (if (!holes.isEmpty && !args.isEmpty) = true then Doc.space else Doc.nil).solid = true := by
    split <;> rfl
  rw [h1, Bool.true_and]
  split
  · rfl
  · split
    · exact argsJoin_solid h'
    · simp [softBlock, Doc.solid, argsJoin_solid h']

theorem argsDoc_solid {o : Opts} {k : CallKind} {aa : Ann} {l r : Token} {items : Items}
    {ds : List ItemDoc} (h : ∀ d ∈ ds, d.doc.solid = true) :
    (argsDoc o k aa l items ds r).solid = true := by
  have hh : ∀ d ∈ ds.takeWhile ItemDoc.isHole, d.doc.solid = true := fun d hd =>
    h d ((List.takeWhile_sublist _).subset hd)
  have ha : ∀ d ∈ ds.dropWhile ItemDoc.isHole, d.doc.solid = true := fun d hd =>
    h d ((List.dropWhile_sublist _).subset hd)
  unfold argsDoc
  split
  · simp [Doc.solid, tokDoc, danglingSoft_solid]
  · split
    · simp [Doc.solid, tokDoc, testJoin_solid ds h]
    · dsimp only
      split
      · exact brokenOut_solid hh ha
      · split
        · exact brokenOut_solid hh ha
        · split
          · unfold groupedArgs
            simp [Doc.solid, brokenOut_solid hh ha]
          · exact brokenOut_solid hh ha

theorem tableDoc_solid {o : Opts} {aa : Ann} {l r : Token} {items : Items}
    {ds : List ItemDoc} (h : ∀ d ∈ ds, d.doc.solid = true) :
    (tableDoc o aa l items ds r).solid = true := by
  unfold tableDoc
  split
  · exact argsDoc_solid h
  · exact verbatimDoc_solid _ _

theorem paramsDoc_solid {o : Opts} {pa : Ann} {l r : Token} {ds : List ItemDoc}
    (h : ∀ d ∈ ds, d.doc.solid = true) : (paramsDoc o pa l ds r).solid = true := by
  unfold paramsDoc
  refine nodeDoc_solid ?_ rfl
  cases ds with
  | nil => simp [Doc.solid, tokDoc, danglingSoft_solid]
  | cons d ds =>
    simp [Doc.solid, tokDoc, softBlock, paramsJoin, full_solid (h d (by simp)),
      paramsTail_solid (ds := ds) fun e he => h e (by simp [he])]

theorem bracedDoc_solid {cx : Cx} {a : Ann} {l r : Token} {es : Exprs} {d : Doc}
    (hd : d.solid = true) : (bracedDoc cx a l es d r).solid = true := by
  unfold bracedDoc
  split
  · simp [Doc.solid, tokDoc, danglingHard_solid]
  · split
    · simp [Doc.solid, tokDoc, spaceBlock, leadingDoc_solid, trailingDoc_solid,
        nodeDoc_solid (f := .tok _) (d := danglingSoft _) rfl (danglingSoft_solid _)]
    · simp [Doc.solid, tokDoc, hardBlock, hd]

theorem stmtSep_solid (d : Bool) (n : Nat) : (stmtSep d n).solid = true := by
  unfold stmtSep
  split
  · split
    · rfl
    · split <;> rfl
  · split <;> rfl

theorem maybeSpace_solid (b : Bool) : (maybeSpace b).solid = true := by cases b <;> rfl

mutual
theorem fmt_solid (o : Opts) (cx : Cx) (hc : cx.flatParams = false) :
    (e : Expr) → (fmt o cx e).solid = true
  | .atom _ _ _ => by rw [fmt]; exact wrapDoc_solid rfl
  | .str _ _ c _ => by cases c <;> simp only [fmt] <;> exact wrapDoc_solid rfl
  | .paren _ _ e _ => by
    rw [fmt]
    refine wrapDoc_solid ?_
    have := fmt_solid o (bodyCx cx) rfl e
    split <;> simp [Doc.solid, tokDoc, hardBlock, this]
  | .braced _ _ es _ => by
    rw [fmt]
    exact wrapDoc_solid (bracedDoc_solid (fmtExprs_solid o cx _ _ es))
  | .unary _ p e => by
    rw [fmt]
    refine wrapDoc_solid ?_
    have := fmt_solid o (if p.kind = .wat then bodyCx cx else plainCx cx)
      (by split <;> rfl) e
    split <;> simp [Doc.solid, tokDoc, softBlock, maybeSpace_solid, this]
  | .binary a x p y => by
    rw [fmt]
    refine wrapDoc_solid ?_
    have h1 := fmt_solid o (opCx cx p.kind) rfl x
    have h2 := fmt_solid o (opCx cx p.kind) rfl y
    have h3 := fun al tb => fmt_solid o { opCx cx p.kind with aligned := al, table := tb } rfl y
    have h4 := fun al => fmt_solid o { opCx cx p.kind with chain := true, aligned := al } rfl x
    split
    · simp [Doc.solid, tokDoc, h1, h2]
    · split
      · simp only [Doc.solid, h1, Bool.true_and]
        split <;> simp [Doc.solid, h3]
      · split
        · have : ∀ d : Doc, d = (fmt o { opCx cx p.kind with chain := true, aligned := cx.aligned } x ⊹
              (if cx.aligned = true then chainPiece p y (fmt o (opCx cx p.kind) y)
               else .indent (chainPiece p y (fmt o (opCx cx p.kind) y)))) → d.solid = true := by
            intro d hd
            rw [hd]
            simp only [Doc.solid, h4, Bool.true_and]
            split <;> simp [Doc.solid, chainPiece, tokDoc, h2]
          dsimp only
          split
          · exact this _ rfl
          · rw [Doc.solid]; exact this _ rfl
        · simp [Doc.solid, tokDoc, h1, h2]
  | .sel _ _ x _ y => by
    rw [fmt]
    exact wrapDoc_solid (by
      simp [Doc.solid, tokDoc, fmt_solid o (plainCx cx) rfl x, fmt_solid o (plainCx cx) rfl y])
  | .call _ _ f _ _ items _ => by
    rw [fmt]
    refine wrapDoc_solid ?_
    have hi := fmtItems_solid o { inArg := true } true rfl items
    simp only [Doc.solid, fmt_solid o (plainCx cx) rfl f, Bool.true_and]
    refine nodeDoc_solid ?_ rfl
    split
    · exact tableDoc_solid hi
    · exact argsDoc_solid hi
  | .func _ _ _ _ items _ b => by
    rw [fmt]
    refine wrapDoc_solid ?_
    simp [Doc.solid, tokDoc, hc, paramsDoc_solid (fmtItems_solid o (plainCx cx) false rfl items),
      bodyDoc_solid (fmt_solid o (bodyCx cx) rfl b)]
  | .ite _ _ _ c _ t => by
    rw [fmt]
    refine wrapDoc_solid ?_
    simp [Doc.solid, tokDoc, softBlock, fmt_solid o (plainCx cx) rfl c,
      bodyDoc_solid (fmt_solid o (bodyCx cx) rfl t)]
  | .itee _ _ _ c _ t _ _ e => by
    rw [fmt]
    refine wrapDoc_solid ?_
    simp only [Doc.solid, tokDoc, softBlock, fmt_solid o (plainCx cx) rfl c,
      bodyDoc_solid (fmt_solid o (bodyCx cx) rfl t), Bool.true_and, Bool.and_true]
    refine nodeDoc_solid ?_ (danglingSoft_solid _)
    simp only [Doc.solid, Bool.true_and]
    exact bodyDoc_solid (fmt_solid o _ rfl e)
  | .for_ _ _ _ v _ s _ b => by
    rw [fmt]
    refine wrapDoc_solid ?_
    simp [Doc.solid, tokDoc, fmt_solid o (plainCx cx) rfl v, fmt_solid o (plainCx cx) rfl s,
      bodyDoc_solid (fmt_solid o (bodyCx cx) rfl b)]
  | .while_ _ _ _ c _ b => by
    rw [fmt]
    refine wrapDoc_solid ?_
    simp [Doc.solid, tokDoc, softBlock, fmt_solid o (plainCx cx) rfl c,
      bodyDoc_solid (fmt_solid o (bodyCx cx) rfl b)]
  | .repeat_ _ _ b => by
    rw [fmt]
    refine wrapDoc_solid ?_
    simp [Doc.solid, tokDoc, bodyDoc_solid (fmt_solid o (bodyCx cx) rfl b)]
theorem fmtExprs_solid (o : Opts) (cx : Cx) (top first : Bool) :
    (es : Exprs) → (fmtExprs o cx top first es).solid = true
  | .nil => rfl
  | .cons e es => by
    rw [fmtExprs]
    simp only [Doc.solid, fmtExprs_solid o cx top false es, Bool.and_true]
    rw [fmt_solid o _ rfl e, Bool.and_true]
    split
    · rfl
    · exact stmtSep_solid _ _
theorem fmtItems_solid (o : Opts) (vcx : Cx) (dir : Bool) (hc : vcx.flatParams = false) :
    (xs : Items) → ∀ d ∈ fmtItems o vcx dir xs, d.doc.solid = true
  | .nil => by intro d hd; cases hd
  | .last x => by
    intro d hd
    rw [fmtItems] at hd
    rw [List.mem_singleton] at hd
    subst hd
    exact argDoc_solid (fmtArg_solid o vcx hc x)
  | .cons x s xs => by
    intro d hd
    rw [fmtItems] at hd
    rcases List.mem_cons.mp hd with rfl | hd
    · exact argDoc_solid (fmtArg_solid o vcx hc x)
    · exact fmtItems_solid o vcx dir hc xs d hd
theorem fmtArg_solid (o : Opts) (vcx : Cx) (hc : vcx.flatParams = false) :
    (x : Arg) → (fmtArg o vcx x).solid = true
  | .hole _ => rfl
  | .val _ e => by rw [fmtArg]; exact fmt_solid o vcx hc e
  | .name _ na n q => by
    rw [fmtArg]
    simp only [Doc.solid, Bool.and_true]
    exact nodeDoc_solid (by simp [Doc.solid, tokDoc, fmt_solid o (plainCx vcx) rfl n])
      (danglingSoft_solid _)
  | .named _ na n q e => by
    rw [fmtArg]
    simp only [Doc.solid, fmt_solid o vcx hc e, Bool.and_true]
    exact nodeDoc_solid (by simp [Doc.solid, tokDoc, fmt_solid o (plainCx vcx) rfl n])
      (danglingSoft_solid _)
  | .pdef _ n da q e => by
    rw [fmtArg]
    simp only [Doc.solid, fmt_solid o (plainCx vcx) rfl n, Bool.true_and]
    exact nodeDoc_solid (by simp [Doc.solid, tokDoc, fmt_solid o vcx hc e])
      (danglingSoft_solid _)
end

theorem fmtRoot_solid (o : Opts) (x : Root) : (fmtRoot o x).solid = true := by
  unfold fmtRoot
  split
  · rfl
  · exact nodeDoc_solid (by simp [Doc.solid, fmtExprs_solid]) (danglingSoft_solid _)

/-- Every file has layouts. -/
theorem lays_fmtRoot (o : Opts) (x : Root) (wide : Bool) (m : Mode) (i : Nat) :
    Lays false m i (fmtRoot o x) (lay wide false false m i (fmtRoot o x)) :=
  lay_lays _ _ _ _ _ _ ((fmtRoot_solid o x : (fmtRoot o x).solid = true) |> Doc.solid.fine wide _ _ _)

end Verif.Format
