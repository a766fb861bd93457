import Verif.Lemmas.InlineDocs

/-!
# Every expression without comments on one line
-/

namespace Verif.Format
open Verif.Syntax

variable {o : Opts}

theorem isSticky_stuck (k : Kind) : isSticky k = stuck k := by cases k <;> rfl

theorem isAssign_assigns (k : Kind) : isAssignOp k = assigns k := by cases k <;> rfl

theorem isTerminal_word (e : Expr) : e.isTerminal = e.isWord := by cases e <;> rfl

theorem lined_drop_nil {d : Doc} {A : Option (List El)} (h : Lined d A) : Lined (.nil ⊹ d) A :=
  fun m i x hx hn => h m i x (prints_nil_cat.1 hx) hn

theorem lined_cat_nil {d : Doc} {A : Option (List El)} (h : Lined d A) : Lined (d ⊹ .nil) A :=
  fun m i x hx hn => h m i x (prints_cat_nil.1 hx) hn

theorem lined_braced {cx : Cx} {p : Place} {l r : Token} {a : Ann} (ha : a.all = []) (list : Doc) :
    (es : Exprs) → es.comments = [] →
    Lined (bracedDoc cx a l es list r) ((Expr.braced a l es r).inline o p)
  | .nil, _ => by
    rw [Ann.eq_nil ha]
    unfold Expr.inline
    refine lined_cat (lined_word l) (lined_one ?_)
    rintro m i _ ⟨x, y, rfl, (rfl : x = _), (rfl : y = _)⟩ -
    exact ⟨_, rfl, rfl⟩
  | .cons e es, hc => by
    have hard : ∀ A, Lined (tokDoc l ⊹ hardBlock list ⊹ tokDoc r) A := by
      rintro A m i _ ⟨x, y, rfl, hx, u, v, rfl, hu, hv⟩ hn
      exact absurd (any_split (any_split hn).2).1 (by
        obtain ⟨q, w, rfl, -, (rfl : w = _)⟩ := hu
        simp [lineEls, El.isNl])
    unfold bracedDoc
    dsimp only
    split
    · next ia il ea t ir heq =>
      unfold curlyCurly at heq
      split at heq
      · split at heq
        · simp only [Option.some.injEq, Prod.mk.injEq] at heq
          obtain ⟨rfl, rfl, rfl, rfl, rfl⟩ := heq
          simp only [Exprs.comments, Expr.comments, List.append_eq_nil_iff, and_true] at hc
          rename_i es' ia il ea t ir hes hin
          cases hes
          simp only [Exprs.comments, Expr.comments, List.append_eq_nil_iff, and_true] at hc
          obtain ⟨h1, h2⟩ := hc
          rw [Ann.eq_nil h1, Ann.eq_nil h2]
          unfold Expr.inline
          refine lined_group (lined_drop_nil (lined_cat (lined_word l) (lined_cat (lined_word _) (lined_app
            (As := [blank, oneTok _, blank]) ?_ (lined_cat (lined_word _) (lined_cat (lined_word r) lined_nil'))))))
          exact lined_app (As := [blank, oneTok _]) (lined_indent (lined_cat lined_sos (lined_one (lined_node (lined_word _)))))
            (lined_one lined_sos)
        · cases heq
      · cases heq
    · exact hard _

theorem none_lined {d : Doc} (A : Option (List El)) (h : Lined d none) : Lined d A := by
  intro m i x hx hn
  obtain ⟨L, h, -⟩ := h m i x hx hn
  cases h

theorem bodyCx_eq (cx : Cx) : (bodyCx cx).eq = Place.body.assign := rfl

theorem comments_ann (e : Expr) (h : e.comments = []) : e.ann.all = [] := by
  cases e <;> simp_all [Expr.comments, Expr.ann]

theorem args_ann (x : Arg) (h : x.comments = []) : x.ann.all = [] := by
  cases x <;> simp_all [Arg.comments, Arg.ann]

theorem holes_bare : (xs : Items) → xs.comments = [] → ∀ a s, (Arg.hole a, s) ∈ xs.entries → a.all = []
  | .nil, _ => by simp [Items.entries]
  | .last x, h => by
    simp only [Items.comments] at h
    simp only [Items.entries, List.mem_singleton, Prod.mk.injEq]
    rintro a s ⟨rfl, -⟩
    exact h
  | .cons x s xs, h => by
    simp only [Items.comments, List.append_eq_nil_iff] at h
    simp only [Items.entries, List.mem_cons, Prod.mk.injEq]
    rintro a t (⟨rfl, -⟩ | ht)
    · exact h.1
    · exact holes_bare xs h.2 a t ht

theorem argDoc_lined {x : Arg} {dir : Bool} {d : Doc} {A : Option (List El)} (hc : x.ann.all = [])
    (ho : x.ordinary o = true) (h : Lined d A) : Lined (argDoc o dir x d) A := by
  unfold argDoc
  rw [Ann.eq_nil hc]
  simp only [hasDirective, List.any_nil, Bool.and_false, Bool.false_eq_true, if_false]
  exact lined_node h

mutual
theorem fmt_lined : (e : Expr) → (cx : Cx) → (p : Place) → e.comments = [] → e.ordinary o = true →
    cx.table = none → cx.eq = p.assign → Lined (fmt o cx e) (e.inline o p)
  | .atom a k t, cx, p, hc, ho, ht, hp => by
    unfold Expr.inline
    rw [fmt]
    exact lined_wrap hc ho (lined_word t)
  | .str a op none cl, cx, p, hc, ho, ht, hp => by
    unfold Expr.inline
    rw [fmt]
    exact lined_wrap hc ho (lined_cat (lined_word op) (lined_drop_nil (lined_one (lined_word cl))))
  | .str a op (some c) cl, cx, p, hc, ho, ht, hp => by
    unfold Expr.inline
    rw [fmt]
    exact lined_wrap hc ho (lined_cat (lined_word op) (lined_cat (lined_word c) (lined_one (lined_word cl))))
  | .paren a l e r, cx, p, hc, ho, ht, hp => by
    have ho' := ho
    simp only [Expr.comments, List.append_eq_nil_iff, Expr.ordinary, Bool.and_eq_true] at hc ho'
    have ih := fmt_lined e (bodyCx cx) .body hc.2 ho'.2 rfl rfl
    unfold Expr.inline
    rw [fmt]
    refine lined_wrap hc.1 ho (lined_cat (lined_word l) (lined_cat ?_ (lined_one (lined_word r))))
    split
    · exact lined_hard _ _
    · exact ih
  | .braced a l es r, cx, p, hc, ho, ht, hp => by
    simp only [Expr.comments, List.append_eq_nil_iff] at hc
    rw [fmt]
    exact lined_wrap hc.1 ho (lined_braced hc.1 _ es hc.2)
  | .unary a op e, cx, p, hc, ho, ht, hp => by
    have ho' := ho
    simp only [Expr.comments, List.append_eq_nil_iff, Expr.ordinary, Bool.and_eq_true] at hc ho'
    have ih := fmt_lined e (if op.kind = .wat then bodyCx cx else plainCx cx) { assign := op.kind == .wat }
      hc.2 ho'.2 (by split <;> rfl) (by
        split
        · next h => rw [h]; rfl
        · next h => simp [plainCx, h])
    unfold Expr.inline
    rw [fmt]
    refine lined_wrap hc.1 ho ?_
    have hann : e.ann.any = false := by
      have : e.ann.all = [] := comments_ann e hc.2
      rw [Ann.eq_nil this]
      rfl
    rw [hann, isTerminal_word]
    simp only [Bool.false_eq_true, if_false]
    generalize (if op.kind = .wat then bodyCx cx else plainCx cx) = ucx at ih ⊢
    split
    · next h =>
      rw [h.1] at ih
      rw [h.2, h.1]
      refine lined_cat (lined_word op) (lined_cat lined_space (lined_one ?_))
      have : (Kind.tilde == Kind.wat) = false := rfl
      rw [this] at ih
      exact ih
    · next h =>
      have : (op.kind == .tilde && !e.isWord) = false := by
        cases hw : e.isWord <;> simp_all
      rw [this]
      exact lined_cat (lined_word op) (lined_drop_nil (lined_one ih))
  | .binary a x op y, cx, p, hc, ho, ht, hp => by
    have ho' := ho
    simp only [Expr.comments, List.append_eq_nil_iff, Expr.ordinary, Bool.and_eq_true] at hc ho'
    have hcx := opCx_operand hp op.kind
    have ihx := fmt_lined x (opCx cx op.kind) (p.operand op.kind) hc.1.2 ho'.1.2 rfl hcx
    have ihy := fmt_lined y (opCx cx op.kind) (p.operand op.kind) hc.2 ho'.2 rfl hcx
    have ihc := fmt_lined x { opCx cx op.kind with chain := true, aligned := cx.aligned } (p.operand op.kind)
      hc.1.2 ho'.1.2 rfl hcx
    have iha := fmt_lined y { opCx cx op.kind with aligned := assignBreak o op.kind y, table := none }
      (p.operand op.kind) hc.2 ho'.2 rfl hcx
    unfold Expr.inline
    rw [fmt]
    refine lined_wrap hc.1.1 ho ?_
    rw [isSticky_stuck, isAssign_assigns]
    split
    · exact lined_group (lined_cat ihx (lined_cat (lined_word op) (lined_one ihy)))
    · split
      · rw [ordinary_dir ho'.1.1 _ (.inr rfl)]
        refine lined_group (lined_cat ihx (lined_cat lined_space (lined_cat (assignTok_operator hp op) ?_)))
        split
        · refine lined_indent ?_
          rintro m i _ ⟨u, v, rfl, (rfl : u = _), -⟩ hn
          simp [lineEls, El.isNl] at hn
        · exact lined_cat lined_space (lined_one iha)
      · next hk =>
        rw [operator_other (by simpa using hk)]
        have hl : Lined (.line (if linesBefore y.tokens > 1 then .empty else .softOrSpace)) blank := by
          split
          · exact lined_empty _
          · exact lined_sos
        split
        · have hpc : Lined (chainPiece op y (fmt o (opCx cx op.kind) y)) (inLine [blank, oneTok op, blank,
              y.inline o (p.operand op.kind)]) :=
            lined_cat lined_space (lined_cat (lined_word op) (lined_cat hl (lined_one ihy)))
          have hd : Lined (fmt o { opCx cx op.kind with chain := true, aligned := cx.aligned } x ⊹
              (if cx.aligned then chainPiece op y (fmt o (opCx cx op.kind) y)
                else .indent (chainPiece op y (fmt o (opCx cx op.kind) y)))) (inLine [x.inline o (p.operand op.kind),
              blank, oneTok op, blank, y.inline o (p.operand op.kind)]) := by
            refine lined_cat ihc ?_
            split
            · exact hpc
            · exact lined_indent hpc
          dsimp only
          split
          · exact hd
          · exact lined_group hd
        · exact lined_group (lined_cat ihx (lined_cat lined_space (lined_cat (lined_word op)
            (lined_indent (lined_cat lined_sos (lined_one ihy))))))
  | .sel a k x op y, cx, p, hc, ho, ht, hp => by
    have ho' := ho
    simp only [Expr.comments, List.append_eq_nil_iff, Expr.ordinary, Bool.and_eq_true] at hc ho'
    unfold Expr.inline
    rw [fmt]
    exact lined_wrap hc.1.1 ho (lined_group (lined_cat
      (fmt_lined x (plainCx cx) {} hc.1.2 ho'.1.2 rfl rfl)
      (lined_cat (lined_word op) (lined_one (fmt_lined y (plainCx cx) {} hc.2 ho'.2 rfl rfl)))))
  | .call a k f aa l items r, cx, p, hc, ho, ht, hp => by
    have ho' := ho
    simp only [Expr.comments, List.append_eq_nil_iff, Expr.ordinary, Bool.and_eq_true] at hc ho'
    unfold Expr.inline
    rw [fmt]
    have htab : cx.table.getD (hasDirective o cx.dir a .table || inSetting o.table f) = false := by
      rw [ht, Option.getD_none, ordinary_dir ho'.1.1.1 _ (.inr rfl), Bool.false_or]
      exact (listed_setting (by simpa using ho'.1.1.2)).2
    rw [htab, if_neg (by simp), Ann.eq_nil hc.1.2]
    exact lined_wrap hc.1.1.1 ho (lined_cat (fmt_lined f (plainCx cx) {} hc.1.1.2 ho'.1.2 rfl rfl)
      (lined_node (lined_args (fmtItems_lined items { inArg := true } true hc.2 ho'.2 rfl rfl)
        (fmtItems_entries o _ _ items) (holes_bare items hc.2))))
  | .func a kw pa l items r b, cx, p, hc, ho, ht, hp => by
    have ho' := ho
    simp only [Expr.comments, List.append_eq_nil_iff, Expr.ordinary, Bool.and_eq_true] at hc ho'
    have ih := fmt_lined b (bodyCx cx) .body hc.2 ho'.2 rfl rfl
    unfold Expr.inline
    rw [fmt, Ann.eq_nil hc.1.1.2]
    have hps : Lined (paramsDoc o {} l (fmtItems o (plainCx cx) false items) r) (inLine [oneTok l,
        items.inline o true false, oneTok r]) :=
      lined_params (fmtItems_lined items (plainCx cx) false hc.1.2 ho'.1.2 rfl rfl) (fmtItems_entries o _ _ items)
    refine lined_wrap hc.1.1.1 ho (lined_group (lined_cat (lined_word kw) (lined_app
      (As := [oneTok l, items.inline o true false, oneTok r]) ?_ (lined_cat lined_space (lined_one
        (lined_body (.inr ih) fun _ => ih))))))
    split
    · exact lined_noSoft hps
    · exact hps
  | .ite a kw l c r t, cx, p, hc, ho, ht, hp => by
    have ho' := ho
    simp only [Expr.comments, List.append_eq_nil_iff, Expr.ordinary, Bool.and_eq_true] at hc ho'
    have ih := fmt_lined t (bodyCx cx) .body hc.2 ho'.2 rfl rfl
    unfold Expr.inline
    rw [fmt]
    exact lined_wrap hc.1.1 ho (lined_group (lined_cat (lined_word kw) (lined_cat lined_space (lined_cat (lined_word l)
      (lined_cat (lined_group (lined_softBlock (fmt_lined c (plainCx cx) {} hc.1.2 ho'.1.2 rfl rfl)))
        (lined_cat (lined_word r) (lined_cat lined_space (lined_one (lined_body (.inr ih) fun _ => ih)))))))))
  | .itee a kw l c r t ea el e, cx, p, hc, ho, ht, hp => by
    have ho' := ho
    simp only [Expr.comments, List.append_eq_nil_iff, Expr.ordinary, Bool.and_eq_true] at hc ho'
    have ih := fmt_lined t (bodyCx cx) .body hc.1.1.2 ho'.1.2 rfl rfl
    have ihe := fun f : Bool => fmt_lined e { bodyCx cx with braces := if e.isIf then some f else none } .body
      hc.2 ho'.2 rfl rfl
    unfold Expr.inline
    rw [fmt, Ann.eq_nil hc.1.2]
    exact lined_wrap hc.1.1.1.1 ho (lined_group (lined_cat (lined_word kw) (lined_cat lined_space (lined_cat (lined_word l)
      (lined_cat (lined_group (lined_softBlock (fmt_lined c (plainCx cx) {} hc.1.1.1.2 ho'.1.1.2 rfl rfl)))
        (lined_cat (lined_word r) (lined_cat lined_space (lined_cat (lined_body (.inr ih) fun _ => ih)
          (lined_cat lined_space (lined_node (lined_cat (lined_word el) (lined_cat lined_space (lined_one
            (lined_body (.inr (ihe _)) fun _ => ihe _))))))))))))))
  | .for_ a kw l v i s r b, cx, p, hc, ho, ht, hp => by
    have ho' := ho
    simp only [Expr.comments, List.append_eq_nil_iff, Expr.ordinary, Bool.and_eq_true] at hc ho'
    have ih := fmt_lined b (bodyCx cx) .body hc.2 ho'.2 rfl rfl
    unfold Expr.inline
    rw [fmt]
    refine lined_wrap hc.1.1.1 ho (lined_group ?_)
    have key : ∀ B, Lined (bodyDoc b.isBraced true (fmt o (bodyCx cx) b)) B → Lined
        (tokDoc kw ⊹ .space ⊹ tokDoc l ⊹ fmt o (plainCx cx) v ⊹ .space ⊹ tokDoc i ⊹ .space ⊹
          fmt o (plainCx cx) s ⊹ tokDoc r ⊹ .space ⊹ bodyDoc b.isBraced true (fmt o (bodyCx cx) b))
        (inLine [oneTok kw, blank, oneTok l, v.inline o {}, blank, oneTok i, blank, s.inline o {}, oneTok r, blank, B]) :=
      fun B hB => lined_cat (lined_word kw) (lined_cat lined_space (lined_cat (lined_word l) (lined_cat
        (fmt_lined v (plainCx cx) {} hc.1.1.2 ho'.1.1.2 rfl rfl) (lined_cat lined_space (lined_cat (lined_word i)
          (lined_cat lined_space (lined_cat (fmt_lined s (plainCx cx) {} hc.1.2 ho'.1.2 rfl rfl)
            (lined_cat (lined_word r) (lined_cat lined_space (lined_one hB))))))))))
    split
    · next hb => exact key _ (lined_body (.inl rfl) fun _ => ih)
    · next hb =>
      refine fun m i x hx hn => ?_
      obtain ⟨L, h, -⟩ := key none (lined_body (.inl rfl) fun h => absurd h hb) m i x hx hn
      simp only [inLine_cons] at h
      grind
  | .while_ a kw l c r b, cx, p, hc, ho, ht, hp => by
    have ho' := ho
    simp only [Expr.comments, List.append_eq_nil_iff, Expr.ordinary, Bool.and_eq_true] at hc ho'
    have ih := fmt_lined b (bodyCx cx) .body hc.2 ho'.2 rfl rfl
    unfold Expr.inline
    rw [fmt]
    refine lined_wrap hc.1.1 ho (lined_group ?_)
    have key : ∀ B, Lined (bodyDoc b.isBraced true (fmt o (bodyCx cx) b)) B → Lined
        (tokDoc kw ⊹ .space ⊹ tokDoc l ⊹ .group false (softBlock (fmt o (plainCx cx) c)) ⊹
          tokDoc r ⊹ .space ⊹ bodyDoc b.isBraced true (fmt o (bodyCx cx) b))
        (inLine [oneTok kw, blank, oneTok l, c.inline o {}, oneTok r, blank, B]) :=
      fun B hB => lined_cat (lined_word kw) (lined_cat lined_space (lined_cat (lined_word l)
      (lined_cat (lined_group (lined_softBlock (fmt_lined c (plainCx cx) {} hc.1.2 ho'.1.2 rfl rfl)))
        (lined_cat (lined_word r) (lined_cat lined_space (lined_one hB))))))
    split
    · next hb => exact key _ (lined_body (.inl rfl) fun _ => ih)
    · next hb =>
      refine fun m i x hx hn => ?_
      obtain ⟨L, h, -⟩ := key none (lined_body (.inl rfl) fun h => absurd h hb) m i x hx hn
      simp only [inLine_cons] at h
      grind
  | .repeat_ a kw b, cx, p, hc, ho, ht, hp => by
    have ho' := ho
    simp only [Expr.comments, List.append_eq_nil_iff, Expr.ordinary, Bool.and_eq_true] at hc ho'
    have ih := fmt_lined b (bodyCx cx) .body hc.2 ho'.2 rfl rfl
    unfold Expr.inline
    rw [fmt]
    refine lined_wrap hc.1 ho (lined_group ?_)
    split
    · exact lined_cat (lined_word kw) (lined_cat lined_space (lined_one (lined_body (.inl rfl) fun _ => ih)))
    · next hb =>
      refine fun m i x hx hn => ?_
      obtain ⟨L, h, -⟩ := lined_cat (lined_word kw) (lined_cat lined_space (lined_one (A := none)
        (lined_body (.inl rfl) fun h => absurd h hb))) m i x hx hn
      simp only [inLine_cons] at h
      grind
theorem fmtItems_lined : (xs : Items) → (vcx : Cx) → (dir : Bool) → xs.comments = [] → xs.ordinary o = true →
    vcx.table = none → vcx.eq = false → ∀ d ∈ fmtItems o vcx dir xs, d.lined o
  | .nil, vcx, dir, hc, ho, ht, hp => by simp [fmtItems]
  | .last x, vcx, dir, hc, ho, ht, hp => by
    simp only [Items.comments, Items.ordinary] at hc ho
    simp only [fmtItems, List.mem_singleton, forall_eq]
    exact ⟨argDoc_lined (args_ann x hc) ho (fmtArg_lined x vcx hc ho ht hp),
      argDoc_lined (args_ann x hc) ho (fmtArg_lined x { vcx with flatParams := true } hc ho ht hp)⟩
  | .cons x s xs, vcx, dir, hc, ho, ht, hp => by
    simp only [Items.comments, Items.ordinary, List.append_eq_nil_iff, Bool.and_eq_true] at hc ho
    simp only [fmtItems, List.mem_cons, forall_eq_or_imp]
    exact ⟨⟨argDoc_lined (args_ann x hc.1) ho.1 (fmtArg_lined x vcx hc.1 ho.1 ht hp),
      argDoc_lined (args_ann x hc.1) ho.1 (fmtArg_lined x { vcx with flatParams := true } hc.1 ho.1 ht hp)⟩,
      fmtItems_lined xs vcx dir hc.2 ho.2 ht hp⟩
theorem fmtArg_lined : (x : Arg) → (vcx : Cx) → x.comments = [] → x.ordinary o = true →
    vcx.table = none → vcx.eq = false → Lined (fmtArg o vcx x) (x.inline o)
  | .hole a, vcx, hc, ho, ht, hp => by
    unfold Arg.inline
    rw [fmtArg]
    exact lined_nil
  | .val a e, vcx, hc, ho, ht, hp => by
    simp only [Arg.comments, Arg.ordinary, List.append_eq_nil_iff, Bool.and_eq_true] at hc ho
    unfold Arg.inline
    rw [fmtArg]
    exact fmt_lined e vcx {} hc.2 ho.2 ht hp
  | .name a na n q, vcx, hc, ho, ht, hp => by
    simp only [Arg.comments, Arg.ordinary, List.append_eq_nil_iff, Bool.and_eq_true] at hc ho
    unfold Arg.inline
    rw [fmtArg, Ann.eq_nil hc.1.2]
    exact lined_app (As := [_, _, _]) (lined_node (lined_cat (fmt_lined n (plainCx vcx) {} hc.2 ho.2 rfl rfl)
      (lined_cat lined_space (lined_one (lined_word q))))) (lined_one lined_space)
  | .named a na n q e, vcx, hc, ho, ht, hp => by
    simp only [Arg.comments, Arg.ordinary, List.append_eq_nil_iff, Bool.and_eq_true] at hc ho
    unfold Arg.inline
    rw [fmtArg, Ann.eq_nil hc.1.1.2]
    exact lined_app (As := [_, _, _]) (lined_node (lined_cat (fmt_lined n (plainCx vcx) {} hc.1.2 ho.1.2 rfl rfl)
      (lined_cat lined_space (lined_one (lined_word q))))) (lined_cat lined_space (lined_one
        (fmt_lined e vcx {} hc.2 ho.2 ht hp)))
  | .pdef a n da q e, vcx, hc, ho, ht, hp => by
    simp only [Arg.comments, Arg.ordinary, List.append_eq_nil_iff, Bool.and_eq_true] at hc ho
    unfold Arg.inline
    rw [fmtArg, Ann.eq_nil hc.1.2]
    exact lined_cat (fmt_lined n (plainCx vcx) {} hc.1.1.2 ho.1.2 rfl rfl) (lined_cat lined_space (lined_node
      (lined_cat (lined_word q) (lined_cat lined_space (lined_one (fmt_lined e vcx {} hc.2 ho.2 ht hp))))))
end

end Verif.Format
