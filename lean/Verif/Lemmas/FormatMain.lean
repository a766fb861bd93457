import Verif.Lemmas.FormatReads

/-!
# The main induction over expressions
-/

namespace Verif.Format
open Verif.Syntax

variable {st : Bool}

theorem Reads.forbid_setHead {ps : List (Pos × Tok)} {Q : RState → Prop} {t : Tok} {x : List El}
    (h : Reads st Nc ps Q (.tok t :: x)) : Reads st In (setHead .forbid ps) Q (.tok t :: x) := by
  have hm : (setHead .forbid ps).map Prod.snd = ps.map Prod.snd := by cases ps <;> rfl
  refine ⟨fun hw s hs => ?_, by rw [hm]; exact h.2⟩
  cases hs
  have h1 := h.1 hw .inside (In.nc rfl)
  simp only [seen, endState, RState.after] at h1 ⊢
  cases ps with
  | nil => exact h1.1.elim
  | cons p ps => exact ⟨⟨h1.1.1, rfl, h1.1.2.2⟩, h1.2⟩

variable {o : Opts}

theorem lays_terminal_head {cx : Cx} {y : Expr} (ht : y.isTerminal = true)
    (hl : y.ann.leading = []) {ns : Bool} {m : Mode} {i : Nat} {x : List El}
    (h : Lays ns m i (fmt o (plainCx cx) y) x) : ∃ t rest, x = .tok t :: rest := by
  have hs : suppressed o (plainCx cx) y = false := by
    cases y <;> first | rfl | cases ht
  have hw : ∀ d, Lays ns m i (wrapDoc o (plainCx cx) y d) x →
      (∀ z, Lays ns m i d z → ∃ t rest, z = .tok t :: rest) → ∃ t rest, x = .tok t :: rest := by
    intro d h hd
    unfold wrapDoc at h
    rw [if_neg (by simp [plainCx]), hs, if_neg (by decide)] at h
    obtain ⟨u, v, rfl, hu, w, z, rfl, hw, -⟩ := h
    obtain ⟨t, rest, rfl⟩ := hd w hw
    rw [(lays_leading (st := true) hu).2 hl]
    exact ⟨t, rest ++ z, rfl⟩
  cases y with
  | atom a k t =>
    rw [fmt] at h
    exact hw _ h fun z hz => by cases hz; exact ⟨_, _, rfl⟩
  | str a p c l =>
    have : ∃ d, fmt o (plainCx cx) (.str a p c l) =
        wrapDoc o (plainCx cx) (.str a p c l) (tokDoc p ⊹ d) := by
      cases c <;> exact ⟨_, by simp only [fmt]; rfl⟩
    obtain ⟨d, hd⟩ := this
    rw [hd] at h
    refine hw _ h fun z hz => ?_
    obtain ⟨u, v, rfl, hu, -⟩ := hz
    cases hu
    exact ⟨_, _, rfl⟩
  | _ => cases ht

/-- The right operand of `::`. -/
theorem reads_namespace_right {cx : Cx} {g : Region} {y y' : Expr} {Q : RState → Prop}
    (hn : st = true → g.op = .forbid → y.ann.leading = [] ∧ y.isTerminal = true)
    {ns : Bool} {m : Mode} {i : Nat} {x : List El}
    (h : Lays ns m i (fmt o (plainCx cx) y) x) (hr : Reads st Nc (shape g y') Q x) :
    Reads st In (setHead g.op (shape g y')) Q x := by
  have hm : ∀ p (ps : List (Pos × Tok)), (setHead p ps).map Prod.snd = ps.map Prod.snd := by
    intro p ps; cases ps <;> rfl
  refine ⟨fun hw => ?_, by rw [hm]; exact hr.2⟩
  cases hg : g.op with
  | free =>
    rw [setHead_free (shape_head_free _ _)]
    exact (hr.ofNc fun _ => In.nc).1 hw
  | forbid =>
    obtain ⟨h1, h2⟩ := hn hw hg
    obtain ⟨t, rest, rfl⟩ := lays_terminal_head h2 h1 h
    exact hr.forbid_setHead.1 hw
  | need => cases g <;> cases hg

theorem newBody_force (as m : Bool) (x : Expr) : newBody as true m x = newBody as true false x := by
  simp [newBody]

/-- Statement of the main theorem for one expression. -/
def MainE (st : Bool) (o : Opts) (e : Expr) : Prop :=
  ∀ cx g ns m i x, Tame st o g cx.core e → Quiet st ns x → Lays ns m i (fmt o cx e) x →
    ∃ e', Rew o cx.core e e' ∧ Reads st Nc (shape g e') (Post (tailNl e)) x

theorem kept_elim {b : Bool} {P Q : Prop} (h : if b = true then P else Q) :
    (b = true → P) ∧ (b = false → Q) := by
  cases b
  · exact ⟨fun h => (by cases h), fun _ => h⟩
  · exact ⟨fun _ => h, fun h => (by cases h)⟩

theorem isEmpty_of_not {a : List Comment} (h : (!a.isEmpty) = false) : a.isEmpty = true := by
  simpa using h

/-- Between parentheses and in soft blocks. -/
theorem MainE.paren {e : Expr} (h : MainE st o e) {cx : Cx} {ns : Bool} {m : Mode} {i : Nat}
    {x : List El} (ht : Tame st o .paren cx.core e) (hq : Quiet st ns x)
    (hl : Lays ns m i (.group false (softBlock (fmt o cx e))) x) :
    ∃ e', Rew o cx.core e e' ∧ Reads st Nc (shape .paren e') Nc x := by
  obtain ⟨m', -, hl⟩ := hl
  obtain ⟨a, b, c, rfl, hb, ha, hc, -⟩ := lays_softBlock hl
  obtain ⟨e', hR, hr⟩ := h cx .paren ns m' (i + 1) b ht hq.left.right hb
  exact ⟨e', hR, (ha.pre (hr.imp (fun _ h => h) fun _ => Post.nc)).post hc⟩

theorem main_atom (a : Ann) (k : Kind) (t : Token) : MainE st o (.atom a k t) := by
  intro cx g ns m i x _ hq h
  rw [fmt] at h
  obtain ⟨e', hR, hr⟩ := lays_wrap (g := g) (e := .atom a k t) (R := fun e' => e' = .atom a k t)
    (b := false)
    (fun _ => reads_tok _)
    (fun _ y _ hy => ⟨_, rfl, by cases hy; exact reads_tok _⟩)
    (fun hT => ⟨rfl, .inr (isEmpty_of_not hT)⟩) hq h
  refine ⟨e', ?_, hr⟩
  rw [Rew]
  unfold Unless at hR
  split at hR <;> exact hR

theorem main_str (a : Ann) (p : Token) (c : Option Token) (l : Token) : MainE st o (.str a p c l) := by
  intro cx g ns m i x hT hq h
  rw [Tame] at hT
  obtain ⟨hk, -⟩ := kept_elim hT
  have h : Lays ns m i (wrapDoc o cx (.str a p c l)
      (tokDoc p ⊹ (match c with | some t => tokDoc t | none => .nil) ⊹ tokDoc l)) x := by
    cases c <;> simpa only [fmt] using h
  obtain ⟨e', hR, hr⟩ := lays_wrap (g := g) (R := fun e' => e' = .str a p c l) (b := false) hk
    (fun _ y _ hy => ⟨_, rfl, by
      obtain ⟨u, v, rfl, hu, w, z, rfl, hw, hz⟩ := hy
      cases hu
      cases hz
      refine Reads.append (a := [(.free, outTok p)]) (reads_tok _) ?_
      cases c with
      | none => cases hw; exact reads_tok_forbid _
      | some t => cases hw; exact (reads_tok_forbid _).append (reads_tok_forbid _)⟩)
    (fun hT => ⟨rfl, .inr (isEmpty_of_not hT)⟩) hq h
  refine ⟨e', ?_, hr⟩
  rw [Rew]
  unfold Unless at hR
  split at hR <;> exact hR

theorem main_paren {a : Ann} {l : Token} {e : Expr} {r : Token} (ih : MainE st o e) :
    MainE st o (.paren a l e r) := by
  intro cx g ns m i x hT hq h
  rw [Tame] at hT
  obtain ⟨hk, hT⟩ := kept_elim hT
  rw [fmt] at h
  simp only [Rew]
  refine lays_wrap (b := false) hk (fun hkf y hqy hy => ?_)
    (fun hT => ⟨rfl, .inr (isEmpty_of_not hT)⟩) hq h
  obtain ⟨u, v, rfl, hu, w, z, rfl, hw, hz⟩ := hy
  cases hu
  cases hz
  have hw' : ∃ e', Rew o (bodyCx cx.core) e e' ∧ Reads st Nc (shape .paren e') Nc w := by
    split at hw
    · obtain ⟨p, y, q, rfl, hy, hp, hqq⟩ := lays_hardBlock hw
      obtain ⟨e', hR, hr⟩ := ih _ _ _ _ _ _ (hT hkf) hqy.right.left.left.right hy
      exact ⟨e', hR, ((hp.imp any_an fun _ => Fr.nc).pre
        (hr.imp (fun _ h => h) fun _ => Post.nc)).post (hqq.imp any_an fun _ => Fr.nc)⟩
    · obtain ⟨e', hR, hr⟩ := ih _ _ _ _ _ _ (hT hkf) hqy.right.left hw
      exact ⟨e', hR, hr.imp (fun _ h => h) fun _ => Post.nc⟩
  obtain ⟨e', hR, hr⟩ := hw'
  exact ⟨_, ⟨e', hR, rfl⟩, Reads.append (a := [(.free, outTok l)]) (reads_tok _)
    ((hr.ofNc fun _ => In.nc).append (reads_tok _))⟩

/-- Statement for lists of expressions. -/
def MainEs (st : Bool) (o : Opts) (es : Exprs) : Prop :=
  ∀ cx g top first ns m i x, Tames st o g cx.core top es → Quiet st ns x →
    Lays ns m i (fmtExprs o cx top first es) x →
    ∃ es', Rews o cx.core top es es' ∧
      Reads st Nc (shapes g (if first then .free else .need) es') Nc x

theorem rew_braced_symbol {cx : Cx} (a : Ann) (l : Token) (b : Ann) (k : Kind) (t r : Token) :
    Rew o cx (.braced a l (.cons (.atom b k t) .nil) r)
      (.braced a l (.cons (.atom b k t) .nil) r) := by
  rw [Rew]
  unfold Unless
  split
  · rfl
  · refine ⟨.cons (.atom b k t) .nil, ?_, rfl⟩
    rw [Rews]
    exact ⟨_, .nil, by rw [Rew], by rw [Rews], rfl⟩

theorem main_braced {a : Ann} {l : Token} {es : Exprs} {r : Token} (ih : MainEs st o es) :
    MainE st o (.braced a l es r) := by
  intro cx g ns m i x hT hq h
  rw [Tame] at hT
  obtain ⟨hk, hT⟩ := kept_elim hT
  rw [fmt] at h
  simp only [Rew]
  refine lays_wrap (b := false) hk (fun hkf y hqy hy => ?_) (fun _ => ⟨rfl, .inl rfl⟩) hq h
  have wrapUp : ∀ {xs : Exprs} {w : List El}, Reads st Nc (shapes .brace .free xs) Nc w →
      Reads st Nc (shape g (.braced a l xs r)) In ([.tok (outTok l)] ++ (w ++ [.tok (outTok r)])) := by
    intro xs w hr
    exact Reads.append (a := [(.free, outTok l)]) (reads_tok _)
      ((hr.ofNc fun _ => In.nc).append (reads_tok _))
  unfold bracedDoc at hy
  split at hy
  · obtain ⟨u, v, rfl, hu, w, z, rfl, hw, hz⟩ := hy
    cases hu
    cases hz
    exact ⟨_, ⟨.nil, by rw [Rews], rfl⟩, wrapUp (xs := .nil) (lays_danglingHard hw)⟩
  · split at hy
    · rename_i ia il ea t ir hc
      unfold curlyCurly at hc
      split at hc
      · split at hc
        · cases hc
          refine ⟨_, ⟨.cons (.braced ia il (.cons (.atom ea .rIdentifier t) .nil) ir) .nil,
            ?_, rfl⟩, ?_⟩
          · rw [Rews]
            exact ⟨_, .nil, rew_braced_symbol _ _ _ _ _ _, by rw [Rews], rfl⟩
          · obtain ⟨m', -, u, v, rfl, hu, w, z, rfl, hw, p, q, rfl, hp, c, d, rfl, hc, e, f, rfl,
              he, b, b', rfl, hb, hb'⟩ := hy
            cases hw
            cases hp
            cases he
            cases hb
            obtain ⟨y, c', rfl, ⟨a', b, rfl, ha, hb⟩, hc'⟩ := hc
            have hb2 : Reads st Nc [(.free, outTok t)] Nc b := by
              obtain ⟨u, v, rfl, hu, w, z, rfl, hw, y, t', rfl, hy, ht⟩ := hb
              cases hw
              refine (lays_leading hu).1.pre (((reads_tok _).imp (fun _ h => h) fun _ => In.nc).post
                (Reads.post (P := Nc) (a := []) ?_ (lays_trailing ht _)))
              exact (lays_danglingSoft' hqy.right.right.right.left.left.right.right.right.left
                hy).1
            show Reads st Nc ([(.free, outTok l)] ++ ([(.free, outTok il)] ++ ([(.free, outTok t)] ++
              ([(.free, outTok ir)] ++ [(.free, outTok r)])))) In _
            refine (lays_leading hu).1.pre ((reads_tok _).append (Reads.append
              ((reads_tok _).ofNc fun _ => In.nc) (Reads.append ?_ (Reads.append (reads_tok _)
                (Reads.post ((reads_tok _).ofNc fun _ => In.nc) (lays_trailing hb' _))))))
            exact (((lays_line ha).ofNc fun _ => In.nc).pre hb2).post (lays_line hc')
        · cases hc
      · cases hc
    · obtain ⟨u, v, rfl, hu, w, z, rfl, hw, hz⟩ := hy
      cases hu
      cases hz
      obtain ⟨p, y, q, rfl, hy, hp, hqq⟩ := lays_hardBlock hw
      obtain ⟨es', hR, hr⟩ := ih _ _ _ _ _ _ _ _ (hT hkf) hqy.right.left.left.right hy
      exact ⟨_, ⟨es', hR, rfl⟩, wrapUp (((hp.imp any_an fun _ => Fr.nc).pre hr).post
        (hqq.imp any_an fun _ => Fr.nc))⟩

theorem main_unary {a : Ann} {p : Token} {e : Expr} (ih : MainE st o e) :
    MainE st o (.unary a p e) := by
  intro cx g ns m i x hT hq h
  rw [Tame] at hT
  obtain ⟨hk, hT⟩ := kept_elim hT
  rw [fmt] at h
  simp only [Rew]
  refine lays_wrap (b := e.ann.any || tailNl e) hk (fun hkf y hqy hy => ?_) (fun hT => ?_) hq h
  · obtain ⟨u, v, rfl, hu, w, z, rfl, hw, hz⟩ := hy
    cases hu
    have hcx : (if p.kind = .wat then bodyCx cx.core else plainCx cx.core) =
        (if p.kind = .wat then bodyCx cx else plainCx cx).core := by split <;> rfl
    have hT := hT hkf
    rw [hcx] at hT ⊢
    have hz' : ∃ e', Rew o (if p.kind = .wat then bodyCx cx else plainCx cx).core e e' ∧
        Reads st Nc (shape g e') (Post (e.ann.any || tailNl e)) z := by
      split at hz
      · rename_i hany
        obtain ⟨p, y, q, rfl, hy, hp, hqq, -⟩ := lays_softBlock hz
        obtain ⟨e', hR, hr⟩ := ih _ _ _ _ _ _ hT hqy.right.right.left.right hy
        refine ⟨e', hR, ?_⟩
        rw [hany]
        exact (hp.pre (hr.imp (fun _ h => h) fun _ => Post.nc)).post hqq
      · obtain ⟨e', hR, hr⟩ := ih _ _ _ _ _ _ hT hqy.right.right hz
        exact ⟨e', hR, hr.imp (fun _ h => h) fun _ h => h.mono fun h =>
          (Bool.or_eq_false_iff.1 h).2⟩
    obtain ⟨e', hR, hr⟩ := hz'
    exact ⟨_, ⟨e', hR, rfl⟩, Reads.append (a := [(.free, outTok p)]) (reads_tok _)
      ((lays_maybeSpace hw In).pre (hr.ofNc fun _ => In.nc))⟩
  · simp only [tailNl, Bool.or_eq_false_iff] at hT
    exact ⟨by simp [hT.1.2, hT.2], .inr (isEmpty_of_not hT.1.1)⟩

theorem main_binary {a : Ann} {x : Expr} {p : Token} {y : Expr} (ihx : MainE st o x)
    (ihy : MainE st o y) : MainE st o (.binary a x p y) := by
  intro cx g ns m i z hT hq h
  rw [Tame] at hT
  obtain ⟨hk, hT⟩ := kept_elim hT
  rw [fmt] at h
  simp only [Rew]
  refine lays_wrap (b := tailNl y) hk (fun hkf z hqz hz => ?_) (fun hT => ?_) hq h
  · obtain ⟨htl, hTx, hTy⟩ := hT hkf
    have join : ∀ {x' y' : Expr} {t : Token} {u v w : List El},
        Reads st Nc (shape g x') (Post (tailNl x)) u →
        Reads st (Post (tailNl x)) [] (Post (tailNl x)) v → Reads st Nc (shape g y') (Post (tailNl y)) w →
        Reads st Nc (shape g (.binary a x' t y')) (Post (tailNl y))
          (u ++ (v ++ ([.tok (outTok t)] ++ w))) := by
      intro x' y' t u v w hu hv hw
      refine hu.append (hv.pre ?_)
      refine Reads.append (a := [(g.op, outTok t)]) (reads_tok_op g _ (fun _ => Post.nc) ?_)
        (hw.ofNc fun _ => In.nc)
      intro hw hg s hs
      rw [htl hw hg] at hs
      exact hs
    split at hz
    · rename_i hst
      obtain ⟨hna, hnc⟩ := sticky_not hst
      obtain ⟨m', -, u, v, rfl, hu, w, q, rfl, hw, hqq⟩ := hz
      cases hw
      rw [hnc] at hTx ⊢
      rw [hna] at hTy ⊢
      obtain ⟨x', hRx, hrx⟩ := ihx (opCx cx p.kind) _ _ _ _ _ hTx hqz.left hu
      obtain ⟨y', hRy, hry⟩ := ihy (opCx cx p.kind) _ _ _ _ _ hTy hqz.right.right hqq
      rw [newOp_eq hna]
      exact ⟨_, ⟨x', y', hRx, hRy, rfl⟩, join (v := []) hrx (reads_nil _) hry⟩
    · split at hz
      · rename_i has
        have hnc := assign_not has
        obtain ⟨m', -, u, v, rfl, hu, w, q, rfl, hw, c, d, rfl, hc, hd⟩ := hz
        cases hw
        cases hc
        rw [hnc] at hTx ⊢
        rw [has, Bool.true_and] at hTy ⊢
        obtain ⟨x', hRx, hrx⟩ := ihx (opCx cx p.kind) _ _ _ _ _ hTx hqz.left hu
        rw [outTok_newOp]
        have hd' : ∃ y', Rew o { opCx cx.core p.kind with
              table := if hasDirective o cx.core.dir a .table then some true else none } y y' ∧
            Reads st Nc (shape g y') (Post (tailNl y)) d := by
          split at hd
          · obtain ⟨c, e, rfl, hc, he⟩ := hd
            obtain ⟨y', hRy, hry⟩ := ihy { opCx cx p.kind with
              aligned := assignBreak o p.kind y,
              table := if hasDirective o cx.dir a .table then some true else none }
              _ _ _ _ _ hTy hqz.right.right.right.right he
            exact ⟨y', hRy, ((lays_hard hc).imp any_an fun _ => Fr.nc).pre hry⟩
          · obtain ⟨c, e, rfl, hc, he⟩ := hd
            cases hc
            obtain ⟨y', hRy, hry⟩ := ihy { opCx cx p.kind with
              aligned := assignBreak o p.kind y,
              table := if hasDirective o cx.dir a .table then some true else none }
              _ _ _ _ _ hTy hqz.right.right.right.right he
            exact ⟨y', hRy, (reads_space _).pre hry⟩
        obtain ⟨y', hRy, hry⟩ := hd'
        exact ⟨_, ⟨x', y', hRx, hRy, rfl⟩, join (v := [.space]) hrx (reads_space _) hry⟩
      · rename_i hna
        have hna : isAssignOp p.kind = false := by simpa using hna
        rw [hna, Bool.false_and] at hTy ⊢
        rw [if_neg (by decide)] at hTy ⊢
        rw [newOp_eq hna]
        split at hz
        · rename_i hch
          rw [hch] at hTx ⊢
          have hz' : ∃ m', Lays ns m' i
              (fmt o { opCx cx p.kind with chain := true, aligned := cx.aligned } x ⊹
                (if cx.aligned then chainPiece p y (fmt o (opCx cx p.kind) y)
                 else .indent (chainPiece p y (fmt o (opCx cx p.kind) y)))) z := by
            split at hz
            · exact ⟨m, hz⟩
            · obtain ⟨m', -, hz⟩ := hz
              exact ⟨m', hz⟩
          obtain ⟨m', u, v, rfl, hu, hv⟩ := hz'
          have hv' : ∃ i', Lays ns m' i' (chainPiece p y (fmt o (opCx cx p.kind) y)) v := by
            split at hv
            · exact ⟨_, hv⟩
            · exact ⟨_, hv⟩
          obtain ⟨i', w, q, rfl, hw, c, d, rfl, hc, e, f, rfl, he, hf⟩ := hv'
          cases hw
          cases hc
          obtain ⟨x', hRx, hrx⟩ := ihx { opCx cx p.kind with chain := true, aligned := cx.aligned }
            _ _ _ _ _ hTx hqz.left hu
          obtain ⟨y', hRy, hry⟩ := ihy (opCx cx p.kind) _ _ _ _ _ hTy hqz.right.right.right.right hf
          exact ⟨_, ⟨x', y', hRx, hRy, rfl⟩,
            join (v := [.space]) hrx (reads_space _) ((lays_line he).pre hry)⟩
        · rename_i hch
          have hch : isChainOp p.kind = false := by simpa using hch
          rw [hch] at hTx ⊢
          obtain ⟨m', -, u, v, rfl, hu, w, q, rfl, hw, c, d, rfl, hc, e, f, rfl, he, hf⟩ := hz
          cases hw
          cases hc
          obtain ⟨x', hRx, hrx⟩ := ihx (opCx cx p.kind) _ _ _ _ _ hTx hqz.left hu
          obtain ⟨y', hRy, hry⟩ := ihy (opCx cx p.kind) _ _ _ _ _ hTy hqz.right.right.right.right hf
          exact ⟨_, ⟨x', y', hRx, hRy, rfl⟩,
            join (v := [.space]) hrx (reads_space _) ((lays_line he).pre hry)⟩
  · simp only [tailNl, Bool.or_eq_false_iff] at hT
    exact ⟨hT.2, .inr (isEmpty_of_not hT.1)⟩

theorem main_sel {a : Ann} {k : SelKind} {x : Expr} {p : Token} {y : Expr} (ihx : MainE st o x)
    (ihy : MainE st o y) : MainE st o (.sel a k x p y) := by
  intro cx g ns m i z hT hq h
  rw [Tame] at hT
  obtain ⟨hk, hT⟩ := kept_elim hT
  rw [fmt] at h
  simp only [Rew]
  refine lays_wrap (b := tailNl y) hk (fun hkf z hqz hz => ?_) (fun hT => ?_) hq h
  · obtain ⟨htl, hn, hTx, hTy⟩ := hT hkf
    obtain ⟨m', -, u, v, rfl, hu, w, q, rfl, hw, hqq⟩ := hz
    cases hw
    obtain ⟨x', hRx, hrx⟩ := ihx (plainCx cx) _ _ _ _ _ hTx hqz.left hu
    obtain ⟨y', hRy, hry⟩ := ihy (plainCx cx) _ _ _ _ _ hTy hqz.right.right hqq
    refine ⟨_, ⟨x', y', hRx, hRy, rfl⟩, ?_⟩
    have hop : Reads st (Post (tailNl x)) [(g.op, outTok p)] In [.tok (outTok p)] :=
      reads_tok_op g _ (fun _ => Post.nc) (fun hw hg s hs => by rw [htl hw hg] at hs; exact hs)
    cases k with
    | extract => exact hrx.append (Reads.append (a := [(g.op, outTok p)]) hop
        (hry.ofNc fun _ => In.nc))
    | «namespace» => exact hrx.append (Reads.append (a := [(g.op, outTok p)]) hop
        (reads_namespace_right (fun hw => hn hw rfl) hqq hry))
  · simp only [tailNl, Bool.or_eq_false_iff] at hT
    exact ⟨hT.2, .inr (isEmpty_of_not hT.1)⟩

/-- Statement for argument and parameter lists. -/
def MainI (st : Bool) (o : Opts) (items : Items) : Prop :=
  ∀ vcx dir, TameItems st o vcx.core dir items → ∀ d ∈ fmtItems o vcx dir items,
    ItemOk st o vcx.core dir d

theorem main_call {a : Ann} {k : CallKind} {f : Expr} {aa : Ann} {l : Token} {items : Items}
    {r : Token} (ihf : MainE st o f) (ihi : MainI st o items) :
    MainE st o (.call a k f aa l items r) := by
  intro cx g ns m i z hT hq h
  rw [Tame] at hT
  obtain ⟨hk, hT⟩ := kept_elim hT
  rw [fmt] at h
  simp only [Rew]
  refine lays_wrap (b := false) hk (fun hkf z hqz hz => ?_)
    (fun hT => ⟨rfl, .inr (isEmpty_of_not hT)⟩) hq h
  obtain ⟨hop, hTf, hTi, htab⟩ := hT hkf
  obtain ⟨u, v, rfl, hu, hv⟩ := hz
  obtain ⟨f', hRf, hrf⟩ := ihf (plainCx cx) _ _ _ _ _ hTf hqz.left hu
  obtain ⟨items', hRi, hri⟩ := lays_callArgs (vcx := { inArg := true })
    (ihi { inArg := true } true hTi) htab hqz.right hv (g := g) (b := tailNl f) hop
  exact ⟨_, ⟨f', items', hRf, hRi, rfl⟩, hrf.append hri⟩

theorem main_func {a : Ann} {kw : Token} {pa : Ann} {l : Token} {items : Items} {r : Token}
    {b : Expr} (ihi : MainI st o items) (ihb : MainE st o b) :
    MainE st o (.func a kw pa l items r b) := by
  intro cx g ns m i z hT hq h
  rw [Tame] at hT
  obtain ⟨hk, hT⟩ := kept_elim hT
  rw [fmt] at h
  simp only [Rew]
  refine lays_wrap (b := tailNl b) hk (fun hkf z hqz hz => ?_) (fun hT => ?_) hq h
  · obtain ⟨hTi, hTb, hTb'⟩ := hT hkf
    obtain ⟨m', -, u, v, rfl, hu, w, q, rfl, hw, c, d, rfl, hc, hd⟩ := hz
    cases hu
    cases hc
    have hw' : ∃ ns' mp, Quiet st ns' w ∧ Lays ns' mp i
        (paramsDoc o pa l (fmtItems o (plainCx cx) false items) r) w := by
      split at hw
      · obtain ⟨mp, hw, hin, -⟩ := hw
        refine ⟨true, mp, fun _ _ e he => ?_, hw⟩
        have := List.all_eq_true.1 hin e he
        cases e <;> first | rfl | cases this
      · exact ⟨ns, m', hqz.right.left, hw⟩
    obtain ⟨ns', mp, hq', hw'⟩ := hw'
    obtain ⟨u, v, t, rfl, hu, ht, hv⟩ := lays_params (ihi (plainCx cx) false hTi) hq' hw'
    obtain ⟨items', hRi, hri⟩ := between_reads_free hv
    obtain ⟨b', hRb, hrb⟩ := lays_body (o := o) (cx := bodyCx cx.core) (g := g) (e := b)
      (b := tailNl b) hqz.right.right.right hd
      (fun hc i y hqy hy => ihb (bodyCx cx) g _ _ i y (hTb hc) hqy hy)
      (fun _ i y hqy hy => ihb (bodyCx cx) .brace _ _ i y hTb' hqy hy)
    refine ⟨_, ⟨items', b', m' == .expanded, hRi, hRb, rfl⟩, ?_⟩
    show Reads st Nc ([(.free, outTok kw)] ++ ((.free, outTok l) ::
      (shapeItems items' ++ ([(.free, outTok r)] ++ shape g _)))) _ _
    refine Reads.append (reads_tok _) ?_
    have h1 := (hu.pre (hri.post (ht In))).ofNc (P := In) fun _ => In.nc
    have h2 := h1.append ((reads_space In).pre (hrb.ofNc fun _ => In.nc))
    simp only [List.append_assoc, List.cons_append] at h2 ⊢
    exact h2.imp (fun _ h => h) fun _ h => h.mono fun h => by rw [h]; rfl
  · simp only [tailNl, Bool.or_eq_false_iff] at hT
    exact ⟨hT.2, .inr (isEmpty_of_not hT.1)⟩

theorem main_ite {a : Ann} {kw l : Token} {c : Expr} {r : Token} {t : Expr} (ihc : MainE st o c)
    (iht : MainE st o t) : MainE st o (.ite a kw l c r t) := by
  intro cx g ns m i z hT hq h
  rw [Tame] at hT
  obtain ⟨hk, hT⟩ := kept_elim hT
  rw [fmt] at h
  simp only [Rew]
  refine lays_wrap (b := tailNl t) hk (fun hkf z hqz hz => ?_) (fun hT => ?_) hq h
  · obtain ⟨hTc, hTt, hTt'⟩ := hT hkf
    obtain ⟨m', -, x1, y1, rfl, h1, x2, y2, rfl, h2, x3, y3, rfl, h3, x4, y4, rfl, h4,
      x5, y5, rfl, h5, x6, y6, rfl, h6, h7⟩ := hz
    cases h1
    cases h2
    cases h3
    cases h5
    cases h6
    obtain ⟨c', hRc, hrc⟩ := ihc.paren (cx := plainCx cx) hTc hqz.right.right.right.left h4
    obtain ⟨t', hRt, hrt⟩ := lays_body (o := o) (cx := bodyCx cx.core) (g := g) (e := t)
      (b := tailNl t) hqz.right.right.right.right.right.right h7
      (fun hc i y hqy hy => iht (bodyCx cx) g _ _ i y (hTt hc) hqy hy)
      (fun _ i y hqy hy => iht (bodyCx cx) .brace _ _ i y hTt' hqy hy)
    refine ⟨_, ⟨c', t', m' == .expanded, hRc, hRt, rfl⟩, ?_⟩
    show Reads st Nc ([(.free, outTok kw)] ++ ([(.free, outTok l)] ++
      (shape .paren c' ++ ([(.free, outTok r)] ++ shape g _)))) _ _
    refine (reads_tok _).append ((reads_space In).pre (Reads.append
      ((reads_tok _).ofNc fun _ => In.nc) (Reads.append (hrc.ofNc fun _ => In.nc)
        (Reads.append (reads_tok _) ((reads_space In).pre (hrt.imp (fun _ => In.nc)
          fun _ h => h.mono fun h => by rw [h]; rfl))))))
  · simp only [tailNl, Bool.or_eq_false_iff] at hT
    exact ⟨hT.2, .inr (isEmpty_of_not hT.1)⟩

theorem main_itee {a : Ann} {kw l : Token} {c : Expr} {r : Token} {t : Expr} {ea : Ann}
    {el : Token} {e : Expr} (ihc : MainE st o c) (iht : MainE st o t) (ihe : MainE st o e) :
    MainE st o (.itee a kw l c r t ea el e) := by
  intro cx g ns m i z hT hq h
  rw [Tame] at hT
  obtain ⟨hk, hT⟩ := kept_elim hT
  rw [fmt] at h
  simp only [Rew]
  refine lays_wrap (b := !ea.dangling.isEmpty || tailNl e) hk (fun hkf z hqz hz => ?_)
    (fun hT => ?_) hq h
  · obtain ⟨hTc, hTt, hTt', hea, hTe, hTe'⟩ := hT hkf
    obtain ⟨m', -, x1, y1, rfl, h1, x2, y2, rfl, h2, x3, y3, rfl, h3, x4, y4, rfl, h4,
      x5, y5, rfl, h5, x6, y6, rfl, h6, x7, y7, rfl, h7, x8, y8, rfl, h8, x9, y9, rfl, h9,
      x10, y10, rfl, ⟨x12, y12, rfl, h12, x13, y13, rfl, h13, h14⟩, x11, y11, rfl, h11, h15⟩ := hz
    cases h1
    cases h2
    cases h3
    cases h5
    cases h6
    cases h8
    cases h12
    cases h13
    have hq6 := hqz.right.right.right.right.right.right
    obtain ⟨c', hRc, hrc⟩ := ihc.paren (cx := plainCx cx) hTc hqz.right.right.right.left h4
    obtain ⟨t', hRt, hrt⟩ := lays_body (o := o) (cx := bodyCx cx.core) (g := g) (e := t)
      (b := tailNl t) hq6.left h7
      (fun hc i y hqy hy => iht (bodyCx cx) g _ _ i y (hTt hc).1 hqy hy)
      (fun _ i y hqy hy => iht (bodyCx cx) .brace _ _ i y hTt' hqy hy)
    have hq9 := hq6.right.right.right
    obtain ⟨e', hRe, hre⟩ := lays_body (o := o)
      (cx := { bodyCx cx.core with
          braces := if e.isIf
            then some (cx.core.braces.getD (forceBraces cx.core.effect t (some (el, e))))
            else none }) (g := g) (e := e)
      (b := tailNl e) hq9.left.right.right h14
      (fun hc i y hqy hy => ihe { bodyCx cx with
          braces := if e.isIf
            then some (cx.braces.getD (forceBraces cx.effect t (some (el, e))))
            else none } g _ _ i y (hTe (by
              rcases hc with hc | hc
              · exact .inl hc
              · rw [Bool.or_eq_true] at hc; exact .inr hc)) hqy hy)
      (fun _ i y hqy hy => ihe { bodyCx cx with
          braces := if e.isIf
            then some (cx.braces.getD (forceBraces cx.effect t (some (el, e))))
            else none } .brace _ _ i y hTe' hqy hy)
    refine ⟨_, ⟨c', t', e', m' == .expanded, hRc, hRt, hRe, rfl⟩, ?_⟩
    generalize hF : (cx.braces.getD (forceBraces cx.effect t (some (el, e)))) = F at *
    have hF' : (cx.core.braces.getD (forceBraces cx.core.effect t (some (el, e)))) = F := hF
    rw [hF'] at hTt hTe ⊢
    have htP : st = true → g.els = .forbid → (tailNl t && (!F || t.isBraced)) = false := by
      intro hw hg
      cases hF2 : (!F || t.isBraced) with
      | false => simp
      | true =>
        rw [Bool.and_true]
        refine (hTt ?_).2 hw hg
        rcases (Bool.or_eq_true _ _).mp hF2 with h | h
        · exact .inl (by simpa using h)
        · exact .inr h
    -- the comments before `else`
    have hlead : Reads st (Post (tailNl t && (!F || t.isBraced))) [(g.els, outTok el)] In
        (x9 ++ [.tok (outTok el)]) := by
      by_cases hg : st = true ∧ g.els = .forbid
      · rw [(lays_leading (st := st) h9).2 (hea hg.1 hg.2), List.nil_append]
        exact reads_tok_els g _ (fun _ => Post.nc)
          (fun hw hg s hs => by rw [htP hw hg] at hs; exact hs)
      · refine Reads.pre ((lays_leading h9).1.ofNc fun _ => Post.nc)
          (reads_tok_els g _ (fun _ h => h) fun hw h => absurd ⟨hw, h⟩ hg)
    have hdang : Reads st (Post (tailNl e)) [] (Post (!ea.dangling.isEmpty || tailNl e)) x11 := by
      have h := lays_danglingSoft' hq9.right.left h11
      cases hde : ea.dangling.isEmpty with
      | true => rw [h.2 hde]; exact reads_nil _
      | false => exact h.1.imp (fun _ => Post.nc) fun _ h => h
    show Reads st Nc ([(.free, outTok kw)] ++ ([(.free, outTok l)] ++
      (shape .paren c' ++ ([(.free, outTok r)] ++ (shape g _ ++ ([(g.els, outTok el)] ++
        shape g _)))))) _ _
    refine (reads_tok _).append ((reads_space In).pre (Reads.append
      ((reads_tok _).ofNc fun _ => In.nc) (Reads.append (hrc.ofNc fun _ => In.nc)
        (Reads.append (reads_tok _) ((reads_space In).pre (Reads.append (hrt.ofNc fun _ => In.nc)
          ((reads_space _).pre ?_)))))))
    have h1 := hlead.append ((reads_space In).pre (hre.ofNc fun _ => In.nc))
    have h2 := (h1.imp (fun _ h => h) fun _ h => h.mono (c := tailNl e) fun h => by
      rw [h]; rfl).post (hdang.post (lays_trailing h15 _))
    simp only [List.append_assoc] at h2 ⊢
    exact h2
  · simp only [tailNl, Bool.or_eq_false_iff] at hT
    exact ⟨by simp [isEmpty_of_not hT.1.2, hT.2], .inr (isEmpty_of_not hT.1.1)⟩

theorem main_for {a : Ann} {kw l : Token} {v : Expr} {inn : Token} {s : Expr} {r : Token}
    {b : Expr} (ihv : MainE st o v) (ihs : MainE st o s) (ihb : MainE st o b) :
    MainE st o (.for_ a kw l v inn s r b) := by
  intro cx g ns m i z hT hq h
  rw [Tame] at hT
  obtain ⟨hk, hT⟩ := kept_elim hT
  rw [fmt] at h
  simp only [Rew]
  refine lays_wrap (b := false) hk (fun hkf z hqz hz => ?_)
    (fun hT => ⟨rfl, .inr (isEmpty_of_not hT)⟩) hq h
  obtain ⟨hTv, hTs, hTb, hTb'⟩ := hT hkf
  obtain ⟨m', -, x1, y1, rfl, h1, x2, y2, rfl, h2, x3, y3, rfl, h3, x4, y4, rfl, h4,
    x5, y5, rfl, h5, x6, y6, rfl, h6, x7, y7, rfl, h7, x8, y8, rfl, h8, x9, y9, rfl, h9,
    x10, y10, rfl, h10, h11⟩ := hz
  cases h1
  cases h2
  cases h3
  cases h5
  cases h6
  cases h7
  cases h9
  cases h10
  have hq4 := hqz.right.right.right
  have hq8 := hq4.right.right.right.right
  obtain ⟨v', hRv, hrv⟩ := ihv (plainCx cx) _ _ _ _ _ hTv hq4.left h4
  obtain ⟨s', hRs, hrs⟩ := ihs (plainCx cx) _ _ _ _ _ hTs hq8.left h8
  obtain ⟨b', hRb, hrb⟩ := lays_body (o := o) (cx := bodyCx cx.core) (g := g) (e := b)
    (b := tailNl b) hq8.right.right.right h11
    (fun hc i y hqy hy => ihb (bodyCx cx) g _ _ i y (hTb' (by simpa using hc)) hqy hy)
    (fun _ i y hqy hy => ihb (bodyCx cx) .brace _ _ i y hTb hqy hy)
  rw [newBody_force] at hrb
  refine ⟨_, ⟨v', s', b', hRv, hRs, hRb, rfl⟩, ?_⟩
  show Reads st Nc ([(.free, outTok kw)] ++ ([(.free, outTok l)] ++
    (shape .paren v' ++ ([(.free, outTok inn)] ++ (shape .paren s' ++ ([(.free, outTok r)] ++
      shape g _)))))) _ _
  have hend : (tailNl b && (!true || b.isBraced)) = false := by
    cases b <;> simp [tailNl, Expr.isBraced]
  rw [hend] at hrb
  exact (reads_tok _).append ((reads_space In).pre (Reads.append
    ((reads_tok _).ofNc fun _ => In.nc) (Reads.append (hrv.ofNc fun _ => In.nc)
      ((reads_space _).pre (Reads.append ((reads_tok _).ofNc fun _ => Post.nc)
        ((reads_space In).pre (Reads.append (hrs.ofNc fun _ => In.nc)
          (Reads.append ((reads_tok _).ofNc fun _ => Post.nc)
            ((reads_space In).pre (hrb.ofNc fun _ => In.nc))))))))))

theorem main_while {a : Ann} {kw l : Token} {c : Expr} {r : Token} {b : Expr} (ihc : MainE st o c)
    (ihb : MainE st o b) : MainE st o (.while_ a kw l c r b) := by
  intro cx g ns m i z hT hq h
  rw [Tame] at hT
  obtain ⟨hk, hT⟩ := kept_elim hT
  rw [fmt] at h
  simp only [Rew]
  refine lays_wrap (b := false) hk (fun hkf z hqz hz => ?_)
    (fun hT => ⟨rfl, .inr (isEmpty_of_not hT)⟩) hq h
  obtain ⟨hTc, hTb, hTb'⟩ := hT hkf
  obtain ⟨m', -, x1, y1, rfl, h1, x2, y2, rfl, h2, x3, y3, rfl, h3, x4, y4, rfl, h4,
    x5, y5, rfl, h5, x6, y6, rfl, h6, h7⟩ := hz
  cases h1
  cases h2
  cases h3
  cases h5
  cases h6
  obtain ⟨c', hRc, hrc⟩ := ihc.paren (cx := plainCx cx) hTc hqz.right.right.right.left h4
  obtain ⟨b', hRb, hrb⟩ := lays_body (o := o) (cx := bodyCx cx.core) (g := g) (e := b)
    (b := tailNl b) hqz.right.right.right.right.right.right h7
    (fun hc i y hqy hy => ihb (bodyCx cx) g _ _ i y (hTb' (by simpa using hc)) hqy hy)
    (fun _ i y hqy hy => ihb (bodyCx cx) .brace _ _ i y hTb hqy hy)
  rw [newBody_force] at hrb
  refine ⟨_, ⟨c', b', hRc, hRb, rfl⟩, ?_⟩
  show Reads st Nc ([(.free, outTok kw)] ++ ([(.free, outTok l)] ++
    (shape .paren c' ++ ([(.free, outTok r)] ++ shape g _)))) _ _
  have hend : (tailNl b && (!true || b.isBraced)) = false := by
    cases b <;> simp [tailNl, Expr.isBraced]
  rw [hend] at hrb
  exact (reads_tok _).append ((reads_space In).pre (Reads.append
    ((reads_tok _).ofNc fun _ => In.nc) (Reads.append (hrc.ofNc fun _ => In.nc)
      (Reads.append (reads_tok _) ((reads_space In).pre (hrb.ofNc fun _ => In.nc))))))

theorem main_repeat {a : Ann} {kw : Token} {b : Expr} (ihb : MainE st o b) :
    MainE st o (.repeat_ a kw b) := by
  intro cx g ns m i z hT hq h
  rw [Tame] at hT
  obtain ⟨hk, hT⟩ := kept_elim hT
  rw [fmt] at h
  simp only [Rew]
  refine lays_wrap (b := false) hk (fun hkf z hqz hz => ?_)
    (fun hT => ⟨rfl, .inr (isEmpty_of_not hT)⟩) hq h
  obtain ⟨hTb, hTb'⟩ := hT hkf
  obtain ⟨m', -, x1, y1, rfl, h1, x2, y2, rfl, h2, h3⟩ := hz
  cases h1
  cases h2
  obtain ⟨b', hRb, hrb⟩ := lays_body (o := o) (cx := bodyCx cx.core) (g := g) (e := b)
    (b := tailNl b) hqz.right.right h3
    (fun hc i y hqy hy => ihb (bodyCx cx) g _ _ i y (hTb' (by simpa using hc)) hqy hy)
    (fun _ i y hqy hy => ihb (bodyCx cx) .brace _ _ i y hTb hqy hy)
  rw [newBody_force] at hrb
  refine ⟨_, ⟨b', hRb, rfl⟩, ?_⟩
  have hend : (tailNl b && (!true || b.isBraced)) = false := by
    cases b <;> simp [tailNl, Expr.isBraced]
  rw [hend] at hrb
  exact Reads.append (a := [(.free, outTok kw)]) (reads_tok _)
    ((reads_space In).pre (hrb.ofNc fun _ => In.nc))

theorem lays_stmtSep {top : Bool} {n : Nat} {ns : Bool} {m : Mode} {i : Nat} {x : List El}
    (h : Lays ns m i (stmtSep top n) x) : Reads st An [] Fr x := by
  unfold stmtSep at h
  split at h
  · split at h
    · obtain ⟨u, v, rfl, hu, hv⟩ := h
      cases hv
      exact ((lays_empty hu).imp (fun _ h => h) any_an).pre reads_rnl
    · split at h
      · exact lays_empty h
      · exact lays_hard h
  · split at h
    · exact lays_empty h
    · exact lays_hard h

theorem main_exprs_cons {e : Expr} {es : Exprs} (ihe : MainE st o e) (ihes : MainEs st o es) :
    MainEs st o (.cons e es) := by
  intro cx g top first ns m i x hT hq h
  rw [Tames] at hT
  rw [fmtExprs] at h
  obtain ⟨u, v, rfl, hu, w, z, rfl, hw, hz⟩ := h
  obtain ⟨e', hRe, hre⟩ := ihe
    { dir := true, eq := true, inArg := cx.inArg, effect := top || 0 < es.length } _ _ _ _ _ hT.1 hq.right.left hw
  obtain ⟨es', hRes, hres⟩ := ihes _ _ _ _ _ _ _ _ hT.2 hq.right.right hz
  refine ⟨.cons e' es', by rw [Rews]; exact ⟨e', es', hRe, hRes, rfl⟩, ?_⟩
  have hre := hre.imp (fun _ h => h) fun _ => Post.nc
  cases first with
  | true =>
    cases hu
    show Reads st Nc (setHead .free (shape g e') ++ shapes g .need es') Nc _
    rw [setHead_free (shape_head_free _ _)]
    exact hre.append hres
  | false =>
    have hu := lays_stmtSep (st := st) hu
    show Reads st Nc (setHead .need (shape g e') ++ shapes g .need es') Nc _
    exact (hu.imp any_an fun _ h => h).pre
      ((hre.setHead_need (shape_head_free _ _)).append hres)

theorem rewArg_self {vcx : Cx} {dir : Bool} {x : Arg}
    (h : hasDirective o dir x.ann .skip = true) : RewArg o vcx dir x x := by
  cases x <;> rw [RewArg]
  all_goals exact .inl ⟨h, rfl⟩

/-- Statement for arguments and parameters. -/
def MainA (st : Bool) (o : Opts) (x : Arg) : Prop :=
  ∀ vcx dir, TameArg st o vcx.core dir x →
    (hasDirective o dir x.ann .skip = true → Reads st Nc (shapeArg x) Nc (rawEls x.tokens)) ∧
    DocOk st o vcx.core dir x (fmtArg o vcx x)

theorem RawOk.reads {ps : List (Pos × Tok)} {ts : List Token} (h : RawOk st ps ts) :
    Reads st Nc ps Nc (rawEls ts) := Reads.imp h (fun _ h => h) fun _ => In.nc

theorem main_hole (a : Ann) : MainA st o (.hole a) := by
  intro vcx dir _
  refine ⟨fun _ => reads_nil _, ?_⟩
  intro ns m i x hq h
  cases h
  exact ⟨_, by rw [RewArg], reads_nil _⟩

theorem main_val {a : Ann} {e : Expr} (ih : MainE st o e) : MainA st o (.val a e) := by
  intro vcx dir hT
  rw [TameArg] at hT
  refine ⟨fun h => (hT.1 h).reads, ?_⟩
  intro ns m i x hq h
  rw [fmtArg] at h
  obtain ⟨e', hR, hr⟩ := ih vcx _ _ _ _ _ hT.2 hq h
  exact ⟨.val a e', by rw [RewArg]; exact .inr ⟨e', hR, rfl⟩, hr.imp (fun _ h => h) fun _ => Post.nc⟩

/-- The name clause of an argument. -/
theorem lays_nameClause {n : Expr} (ih : MainE st o n) {vcx : Cx} {na : Ann} {q : Token} {ns : Bool}
    {m : Mode} {i : Nat} {x : List El} (hT : Tame st o .paren (plainCx vcx.core) n) (hq : Quiet st ns x)
    (h : Lays ns m i (nodeDoc na (fmt o (plainCx vcx) n ⊹ .space ⊹ tokDoc q)
      (danglingSoft na.dangling)) x) :
    ∃ n', Rew o (plainCx vcx.core) n n' ∧
      Reads st Nc (shape .paren n' ++ [(.free, outTok q)]) Nc x := by
  obtain ⟨ps, ⟨n', hR, rfl⟩, hr⟩ := lays_node (p := fun ps => ∃ n', Rew o (plainCx vcx.core) n n' ∧
      ps = shape .paren n' ++ [(.free, outTok q)]) hq h (fun y hqy hy => by
    obtain ⟨u, v, rfl, hu, w, z, rfl, hw, hz⟩ := hy
    cases hw
    cases hz
    obtain ⟨n', hR, hr⟩ := ih (plainCx vcx) _ _ _ _ _ hT hqy.left hu
    exact ⟨_, ⟨n', hR, rfl⟩, hr.append ((reads_space _).pre
      ((reads_tok _).imp (fun _ => Post.nc) fun _ => In.nc))⟩)
  exact ⟨n', hR, hr⟩

theorem main_name {a na : Ann} {n : Expr} {q : Token} (ih : MainE st o n) :
    MainA st o (.name a na n q) := by
  intro vcx dir hT
  rw [TameArg] at hT
  refine ⟨fun h => (hT.1 h).reads, ?_⟩
  intro ns m i x hq h
  rw [fmtArg] at h
  obtain ⟨u, v, rfl, hu, hv⟩ := h
  cases hv
  obtain ⟨n', hR, hr⟩ := lays_nameClause ih hT.2 hq.left hu
  exact ⟨.name a na n' q, by rw [RewArg]; exact .inr ⟨n', hR, rfl⟩, hr.post (reads_space _)⟩

theorem main_named {a na : Ann} {n : Expr} {q : Token} {e : Expr} (ihn : MainE st o n)
    (ihe : MainE st o e) : MainA st o (.named a na n q e) := by
  intro vcx dir hT
  rw [TameArg] at hT
  refine ⟨fun h => (hT.1 h).reads, ?_⟩
  intro ns m i x hq h
  rw [fmtArg] at h
  obtain ⟨u, v, rfl, hu, w, z, rfl, hw, hz⟩ := h
  cases hw
  obtain ⟨n', hR, hr⟩ := lays_nameClause ihn hT.2.1 hq.left hu
  obtain ⟨e', hR', hr'⟩ := ihe vcx _ _ _ _ _ hT.2.2 hq.right.right hz
  refine ⟨.named a na n' q e', by rw [RewArg]; exact .inr ⟨n', e', hR, hR', rfl⟩, ?_⟩
  have := hr.append ((reads_space _).pre (hr'.imp (fun _ h => h) fun _ => Post.nc))
  rw [List.append_assoc] at this
  exact this

theorem main_pdef {a : Ann} {n : Expr} {da : Ann} {q : Token} {e : Expr} (ihn : MainE st o n)
    (ihe : MainE st o e) : MainA st o (.pdef a n da q e) := by
  intro vcx dir hT
  rw [TameArg] at hT
  refine ⟨fun h => (hT.1 h).reads, ?_⟩
  intro ns m i x hq h
  rw [fmtArg] at h
  obtain ⟨u, v, rfl, hu, w, z, rfl, hw, hz⟩ := h
  cases hw
  obtain ⟨n', hR, hr⟩ := ihn (plainCx vcx) _ _ _ _ _ hT.2.1 hq.left hu
  obtain ⟨ps, ⟨e', hR', rfl⟩, hr'⟩ := lays_node (p := fun ps => ∃ e', Rew o vcx.core e e' ∧
      ps = (Pos.free, outTok q) :: shape .paren e') hq.right.right hz (fun y hqy hy => by
    obtain ⟨u, v, rfl, hu, w, z, rfl, hw, hz⟩ := hy
    cases hu
    cases hw
    obtain ⟨e', hR, hr⟩ := ihe vcx _ _ _ _ _ hT.2.2 hqy.right.right hz
    exact ⟨_, ⟨e', hR, rfl⟩, Reads.append (a := [(.free, outTok q)]) (reads_tok _)
      ((reads_space In).pre (hr.imp (fun _ => In.nc) fun _ => Post.nc))⟩)
  exact ⟨.pdef a n' da q e', by rw [RewArg]; exact .inr ⟨n', e', hR, hR', rfl⟩,
    hr.append ((reads_space _).pre (hr'.ofNc fun _ => Post.nc))⟩

theorem itemOk_of_main {x : Arg} (h : MainA st o x) {vcx : Cx} {dir : Bool}
    (hT : TameArg st o vcx.core dir x) (sep : Option Token) :
    ItemOk st o vcx.core dir ⟨x, sep, argDoc o dir x (fmtArg o vcx x),
      argDoc o dir x (fmtArg o { vcx with flatParams := true } x), fmtArg o vcx x⟩ := by
  have h1 := h vcx dir hT
  have h2 := h { vcx with flatParams := true } dir hT
  have hs : hasDirective o dir x.ann .skip = true →
      Reads st Nc (shapeArg x) Nc (rawEls x.tokens) ∧ RewArg o vcx.core dir x x :=
    fun h => ⟨h1.1 h, rewArg_self h⟩
  exact ⟨lays_argDoc hs h1.2, lays_argDoc hs h2.2, h1.2⟩

/-- Every layout of every formatted expression reads as a permitted rewriting of it. -/
theorem main_all (o : Opts) : (∀ e, MainE st o e) ∧ (∀ es, MainEs st o es) := by
  have hnil : MainEs st o .nil := by
    intro cx g top first ns m i x _ _ h
    cases h
    exact ⟨.nil, by rw [Rews], by cases first <;> exact reads_nil _⟩
  have inil : MainI st o .nil := by
    intro vcx dir _ d hd
    cases hd
  have ilast : ∀ x, MainA st o x → MainI st o (.last x) := by
    intro x ih vcx dir hT d hd
    rw [TameItems] at hT
    simp only [fmtItems, List.mem_singleton] at hd
    subst hd
    exact itemOk_of_main ih hT none
  have icons : ∀ x s xs, MainA st o x → MainI st o xs → MainI st o (.cons x s xs) := by
    intro x s xs ih ihs vcx dir hT d hd
    rw [TameItems] at hT
    simp only [fmtItems, List.mem_cons] at hd
    rcases hd with rfl | hd
    · exact itemOk_of_main ih hT.1 (some s)
    · exact ihs vcx dir hT.2 d hd
  have he : ∀ e, MainE st o e := fun e => by
    refine Expr.rec (motive_1 := MainE st o) (motive_2 := MainEs st o) (motive_3 := MainI st o)
      (motive_4 := MainA st o) main_atom main_str (fun _ _ _ _ => main_paren)
      (fun _ _ _ _ => main_braced) (fun _ _ _ => main_unary) (fun _ _ _ _ => main_binary)
      (fun _ _ _ _ _ => main_sel) (fun _ _ _ _ _ _ _ => main_call)
      (fun _ _ _ _ _ _ _ => main_func) (fun _ _ _ _ _ _ => main_ite)
      (fun _ _ _ _ _ _ _ _ _ => main_itee) (fun _ _ _ _ _ _ _ _ => main_for)
      (fun _ _ _ _ _ _ => main_while) (fun _ _ _ => main_repeat) hnil
      (fun _ _ => main_exprs_cons) inil ilast icons main_hole (fun _ _ => main_val)
      (fun _ _ _ _ => main_name) (fun _ _ _ _ _ => main_named) (fun _ _ _ _ _ => main_pdef) e
  refine ⟨he, fun es => ?_⟩
  have : ∀ n (es : Exprs), sizeOf es ≤ n → MainEs st o es := by
    intro n
    induction n with
    | zero => intro es hn; cases es <;> simp at hn
    | succ n ih =>
      intro es hn
      cases es with
      | nil => exact hnil
      | cons e es => exact main_exprs_cons (he e) (ih es (by simp at hn; omega))
  exact this _ es (Nat.le_refl _)

end Verif.Format
