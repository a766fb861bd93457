import Verif.Lemmas.NotedArgs

/-!
# Comments before statements, printed like statements: programs
-/

namespace Verif.Format
open Verif.Syntax

variable {o : Opts} {N : Nat} {q : Prop} {cx : Cx}

theorem sim_assignTok (hN : 2 ≤ N) (p : Token) (hp : Short N p) :
    Sim N q (.tok (assignTok o cx p)) (.tok (assignTok o cx (hush p))) := by
  have h1 : assignTok o cx (hush p) = assignTok o cx p := by
    have hk : (hush p).kind = p.kind := rfl
    have ho : outTok (hush p) = outTok p := rfl
    unfold assignTok
    rw [hk, ho]
  rw [h1]
  apply sim_tok'
  unfold assignTok
  split
  · simp [Tok.isNote]; omega
  · split
    · simp [Tok.isNote]; omega
    · exact hp
  · exact hp

theorem voiced_firstRight : (x y : Expr) → (h : Token → Token) → x.Noted o N → quiet y.tokens = true →
    leadingNewline (firstRight (x.voiced N h) (y.voiced N hush)).tokens = leadingNewline (firstRight x y).tokens
  | .binary a x p y', y, h, hn, hq => by
    have hk : (hush p).kind = p.kind := rfl
    simp only [Expr.voiced, firstRight, hk]
    split
    · exact voiced_firstRight x y' h hn.2.2.1 hn.2.2.2.2.1.2
    · exact voiced_newline hq
  | .atom .., y, h, _, hq => voiced_newline hq
  | .str .., y, h, _, hq => voiced_newline hq
  | .paren .., y, h, _, hq => voiced_newline hq
  | .braced .., y, h, _, hq => voiced_newline hq
  | .unary .., y, h, _, hq => voiced_newline hq
  | .sel .., y, h, _, hq => voiced_newline hq
  | .call .., y, h, _, hq => voiced_newline hq
  | .func .., y, h, _, hq => voiced_newline hq
  | .ite .., y, h, _, hq => voiced_newline hq
  | .itee .., y, h, _, hq => voiced_newline hq
  | .for_ .., y, h, _, hq => voiced_newline hq
  | .while_ .., y, h, _, hq => voiced_newline hq
  | .repeat_ .., y, h, _, hq => voiced_newline hq

theorem voiced_direct {e : Expr} (hn : e.Noted o N) : commentsDirect (e.voiced N hush).tokens = false := by
  obtain ⟨-, -, h3, -⟩ := Expr.Simple.ok _ (simple_voiced e hn _ mild_hush)
  obtain ⟨t, ts, ts', h1, h2⟩ := voiced_head (N := N) e hush
  unfold commentsDirect
  rw [h2] at h3 ⊢
  cases hl : (hush t :: ts').getLast? with
  | none => simp at hl
  | some u =>
    have h4 := (h3 (hush t) (by simp)).1
    have h5 := (h3 u (List.mem_of_getLast? hl)).2
    simp_all

theorem assignBreak_voiced {k : Kind} {y : Expr} (hq : quiet y.tokens = true) :
    assignBreak o k (y.voiced N hush) = assignBreak o k y := by
  unfold assignBreak
  rw [voiced_newline hq]

/-- What is shown about an expression. -/
def SimE (o : Opts) (N : Nat) (q : Prop) (e : Expr) : Prop :=
  ∀ (cx : Cx) (h : Token → Token), Mild h → cx.table ≠ some true → (cx.chain = true → e.ann = {}) →
    SimL N (!e.ann.leading.isEmpty) q (fmt o cx e) (leadNotes N e.ann.leading ⊹ fmt o cx (e.voiced N h)) ∧
      Starts (fmt o cx (e.voiced N h))

theorem SimE.free {e : Expr} (hs : SimE o N q e) (ha : e.ann = {}) (cx : Cx) {h : Token → Token} (hh : Mild h)
    (hv : cx.table ≠ some true) : Sim N q (fmt o cx e) (fmt o cx (e.voiced N h)) ∧ Starts (fmt o cx (e.voiced N h)) :=
  ⟨Sim.free ha (hs cx h hh hv (fun _ => ha)).1, (hs cx h hh hv (fun _ => ha)).2⟩

theorem sim_binary (hN : 2 ≤ N) {a : Ann} {x : Expr} {p : Token} {y : Expr} (hn : (Expr.binary a x p y).Noted o N)
    (hq : q → (Expr.binary a x p y).comments = []) (hx : SimE o N q x) (hy : SimE o N q y) :
    SimE o N q (.binary a x p y) := by
  intro cx h hh hv hch
  have hs := simple_voiced _ hn h hh
  obtain ⟨n1, n2, n3, n4, ⟨n5, n6⟩, n7⟩ := id hn
  have hk : (hush p).kind = p.kind := rfl
  have hX : ∀ cx' : Cx, cx'.table ≠ some true → _ := fun cx' hv' => hx.free n2 cx' hh hv'
  have hY : ∀ cx' : Cx, cx'.table ≠ some true → _ := fun cx' hv' => hy.free n5 cx' mild_hush hv'
  have ht := n1.none .table cx.dir
  have ht0 : hasDirective o cx.dir {} .table = false := by simp [hasDirective]
  have hp : Sim N q (tokDoc p) (tokDoc (hush p)) := sim_hush n4
  rw [fmt, Expr.voiced, fmt]
  refine sim_wrap hn hs hch (fun hq' => ?_) ?_ ?_
  · have := hq hq'
    simp only [Expr.comments, List.append_eq_nil_iff] at this
    have h5 := Ann.eq_nil this.1.1
    simp only [Expr.ann]
    rw [h5]
  · rw [hk, assignBreak_voiced n6, ht, ht0, voiced_firstRight x y h n3 n6]
    split
    · exact ((hX _ (by simp [opCx])).1.cat (hp.cat (hY _ (by simp [opCx])).1)).group
    · split
      · refine ((hX _ (by simp [opCx])).1.cat (sim_space.cat ((sim_assignTok hN p n4).cat ?_))).group
        have h2 := (hY { opCx cx p.kind with
          aligned := assignBreak o p.kind y, table := if false = true then some true else none } (by simp)).1
        split
        · exact ((sim_line _).cat h2).indent
        · exact sim_space.cat h2
      · split
        · have h2 : Sim N q (chainPiece p y (fmt o (opCx cx p.kind) y))
              (chainPiece (hush p) (y.voiced N hush) (fmt o (opCx cx p.kind) (y.voiced N hush))) := by
            unfold chainPiece
            rw [voiced_linesBefore]
            exact sim_space.cat (hp.cat ((sim_line _).cat (hY _ (by simp [opCx])).1))
          have h3 : Sim N q (if cx.aligned = true then chainPiece p y (fmt o (opCx cx p.kind) y)
              else (chainPiece p y (fmt o (opCx cx p.kind) y)).indent)
            (if cx.aligned = true then chainPiece (hush p) (y.voiced N hush) (fmt o (opCx cx p.kind) (y.voiced N hush))
              else (chainPiece (hush p) (y.voiced N hush) (fmt o (opCx cx p.kind) (y.voiced N hush))).indent) := by
            split
            · exact h2
            · exact h2.indent
          have h4 := (hX { opCx cx p.kind with chain := true, aligned := cx.aligned } (by simp [opCx])).1.cat h3
          simp only
          split
          · exact h4
          · exact h4.group
        · exact ((hX _ (by simp [opCx])).1.cat (sim_space.cat (hp.cat
            (Sim.indent ((sim_line _).cat (hY _ (by simp [opCx])).1))))).group
  · rw [hk]
    split
    · exact (hX _ (by simp [opCx])).2.cat.group
    · split
      · exact (hX _ (by simp [opCx])).2.cat.group
      · split
        · simp only
          split
          · exact (hX _ (by simp [opCx])).2.cat
          · exact (hX _ (by simp [opCx])).2.cat.group
        · exact (hX _ (by simp [opCx])).2.cat.group

theorem lead_free {e : Expr} {a : Ann} (hq : q → e.comments = []) (ha : e.ann = a) (q' : q) : a.leading = [] := by
  have h1 := hq q'
  have h2 : e.ann.all = [] := by cases e <;> simp_all [Expr.ann, Expr.comments]
  rw [← ha, Ann.eq_nil h2]

theorem forceBraces_voiced {t : Expr} {b : Bool} (hq : quiet t.tokens = true) :
    forceBraces b (t.voiced N hush) none = forceBraces b t none := by
  unfold forceBraces
  rw [voiced_newline hq, voiced_isBraced, voiced_isIf]

theorem forceBraces_voiced2 {t e : Expr} {el : Token} {b : Bool} (hq : quiet t.tokens = true)
    (hel : hasComment el.leading = false) (hqe : quiet e.tokens = true) :
    forceBraces b (t.voiced N hush) (some (hush el, e.voiced N hush)) = forceBraces b t (some (el, e)) := by
  unfold forceBraces
  simp only [voiced_newline hq, voiced_newline hqe, voiced_isBraced, voiced_isIf, hush_newline hel]

theorem argDoc_free {x : Arg} {dir : Bool} {d : Doc} (ha : x.ann = {}) : argDoc o dir x d = nodeDoc {} d .nil := by
  unfold argDoc
  rw [ha]
  simp [hasDirective, danglingSoft]

/-- What is shown about an argument. -/
structure SimA (o : Opts) (N : Nat) (q : Prop) (x : Arg) : Prop where
  doc : ∀ vcx : Cx, vcx.table ≠ some true → vcx.chain = false → Sim N q (fmtArg o vcx x) (fmtArg o vcx (x.voiced N))
  lines : linesBefore x.tokens = linesBefore (x.voiced N).tokens
  newline : leadingNewline x.tokens = leadingNewline (x.voiced N).tokens

theorem arg_head {n : Expr} {ts ts' : List Token} : linesBefore (n.tokens ++ ts) = linesBefore ((n.voiced N hush).tokens ++ ts') := by
  obtain ⟨t, us, us', h1, h2⟩ := voiced_head (N := N) n hush
  rw [h1, h2]
  exact (hush_lines t).symm

theorem arg_newline {n : Expr} {ts ts' : List Token} (hq : quiet n.tokens = true) :
    leadingNewline (n.tokens ++ ts) = leadingNewline ((n.voiced N hush).tokens ++ ts') := by
  obtain ⟨t, us, us', h1, h2⟩ := voiced_head (N := N) n hush
  rw [h1] at hq
  rw [h1, h2]
  exact (hush_newline (by simpa [quiet] using hq)).symm

theorem sim_item {x : Arg} {vcx : Cx} {dir : Bool} {sep : Option Token} (hx : x.Noted o N) (hA : SimA o N q x)
    (hv : vcx.table ≠ some true) (hc : vcx.chain = false) (hs : ∀ s ∈ sep, Short N s) :
    SimItem N q ⟨x, sep, argDoc o dir x (fmtArg o vcx x),
        argDoc o dir x (fmtArg o { vcx with flatParams := true } x), fmtArg o vcx x⟩
      ⟨x.voiced N, sep.map hush, argDoc o dir (x.voiced N) (fmtArg o vcx (x.voiced N)),
        argDoc o dir (x.voiced N) (fmtArg o { vcx with flatParams := true } (x.voiced N)), fmtArg o vcx (x.voiced N)⟩ := by
  have ha : (x.voiced N).ann = {} := by cases x <;> rfl
  refine ⟨?_, ?_, ?_, hA.lines, ?_, ?_, ?_, hA.newline⟩
  · simp only [argDoc_free hx.ann, argDoc_free ha]
    exact sim_nodeNil (hA.doc vcx hv hc)
  · simp only [argDoc_free hx.ann, argDoc_free ha]
    exact sim_nodeNil (hA.doc _ hv hc)
  · cases sep with
    | none => exact sim_nil
    | some s => exact sim_hush (hs s rfl)
  · cases sep with
    | none => rfl
    | some s => exact (hush_lines s).symm
  · cases x with
    | hole a =>
      have : a = {} := hx
      rw [this]
      rfl
    | _ => rfl
  · cases x with
    | val a e =>
      simp only [ItemDoc.hugs, Arg.voiced, voiced_direct hx.2.2.2, hx.2.2.1, voiced_isCall]
    | _ => rfl

mutual
theorem sim_expr {q : Prop} (hN : 2 ≤ N) : (e : Expr) → e.Noted o N → (q → e.comments = []) → SimE o N q e
  | .atom a k t, hn, hq => by
    intro cx h hh hv hch
    have hs := simple_voiced _ hn h hh
    rw [fmt, Expr.voiced, fmt]
    exact sim_wrap hn hs hch (lead_free hq rfl) (sim_mild hh hn.2.1) starts_mild
  | .str a p c l, hn, hq => by
    intro cx h hh hv hch
    have hs := simple_voiced _ hn h hh
    cases c with
    | none =>
      rw [Expr.voiced, Option.map_none, fmt, fmt]
      exact sim_wrap hn hs hch (lead_free hq rfl) ((sim_mild hh hn.2.1).cat (sim_nil.cat (sim_hush hn.2.2.2))) starts_mild.cat
    | some c =>
      rw [Expr.voiced, Option.map_some, fmt, fmt]
      exact sim_wrap hn hs hch (lead_free hq rfl)
        ((sim_mild hh hn.2.1).cat ((sim_hush (hn.2.2.1 c rfl)).cat (sim_hush hn.2.2.2))) starts_mild.cat
  | .paren a l e r, hn, hq => by
    intro cx h hh hv hch
    have hs := simple_voiced _ hn h hh
    obtain ⟨n1, n2, n3, n4, n5, n6⟩ := id hn
    have hE := (sim_expr hN e n5 (fun h => (by have := hq h; simp_all [Expr.comments])) : SimE o N q e)
    rw [fmt, Expr.voiced, fmt]
    simp only [n4, voiced_direct n5]
    exact sim_wrap hn hs hch (lead_free hq rfl) ((sim_mild hh n2).cat
      ((hE.free n3 (bodyCx cx) mild_hush (by simp [bodyCx])).1.cat (sim_hush n6))) starts_mild.cat
  | .braced a l es r, hn, hq => by
    intro cx h hh hv hch
    have hs := simple_voiced _ hn h hh
    obtain ⟨n1, n2, n3, n4, n5⟩ := id hn
    have hE := sim_exprs hN es n4 (fun h => (by have := hq h; simp_all [Expr.comments])) cx false true
    rw [fmt, Expr.voiced, fmt]
    have h1 := sim_braced (cx := cx) hh n1 n2 n5 n4 n3 hE
    exact sim_wrap hn hs hch (lead_free hq rfl) h1.1 h1.2
  | .unary a p e, hn, hq => by
    intro cx h hh hv hch
    have hs := simple_voiced _ hn h hh
    obtain ⟨n1, n2, n3, n4⟩ := id hn
    have hE := (sim_expr hN e n4 (fun h => (by have := hq h; simp_all [Expr.comments])) : SimE o N q e)
    have ha : e.ann.any = false := by rw [n3]; rfl
    have ha' : (e.voiced N hush).ann.any = false := by rw [voiced_ann]; rfl
    rw [fmt, Expr.voiced, fmt]
    simp only [ha, ha', hh.kind, voiced_isTerminal]
    refine sim_wrap hn hs hch (lead_free hq rfl) ((sim_mild hh n2).cat
      ((sim_maybe _).cat (hE.free n3 _ mild_hush ?_).1)) starts_mild.cat
    split <;> simp [bodyCx, plainCx]
  | .binary a x p y, hn, hq => sim_binary hN hn hq
      (sim_expr hN x hn.2.2.1 (fun h => (by have := hq h; simp_all [Expr.comments])))
      (sim_expr hN y hn.2.2.2.2.2 (fun h => (by have := hq h; simp_all [Expr.comments])))
  | .sel a k x p y, hn, hq => by
    intro cx h hh hv hch
    have hs := simple_voiced _ hn h hh
    obtain ⟨n1, n2, n3, n4, n5, n6, n7⟩ := id hn
    have hX := ((sim_expr hN x n3 (fun h => (by have := hq h; simp_all [Expr.comments])) : SimE o N q x)).free n2
      (plainCx cx) hh (by simp [plainCx])
    have hY := ((sim_expr hN y n6 (fun h => (by have := hq h; simp_all [Expr.comments])) : SimE o N q y)).free n5
      (plainCx cx) mild_hush (by simp [plainCx])
    rw [fmt, Expr.voiced, fmt]
    exact sim_wrap hn hs hch (lead_free hq rfl) (hX.1.cat ((sim_hush n4).cat hY.1)).group hX.2.cat.group
  | .call a k f aa l items r, hn, hq => by
    intro cx h hh hv hch
    have hs := simple_voiced _ hn h hh
    obtain ⟨n1, n2, n3, n4, n5, n6, n7, n8, n9⟩ := id hn
    have hX := ((sim_expr hN f n5 (fun h => (by have := hq h; simp_all [Expr.comments])) : SimE o N q f)).free n4
      (plainCx cx) hh (by simp [plainCx])
    have hI := sim_items hN items n7 (fun h => (by have := hq h; simp_all [Expr.comments]) : q → _) { inArg := true } true
      (by simp) rfl
    rw [fmt, Expr.voiced, fmt]
    have ht : cx.table.getD (hasDirective o cx.dir a .table || inSetting o.table f) = false := by
      cases hc : cx.table with
      | none => simp [n1.none, (noted_setting n3).2]
      | some b =>
        cases b with
        | false => rfl
        | true => exact absurd hc hv
    have ht0 : cx.table.getD (hasDirective o cx.dir {} .table || inSetting o.table (f.voiced N h)) = false := by
      have h3 : listed o (f.voiced N h) = false := by rw [voiced_listed hh]; exact n3
      cases hc : cx.table with
      | none => simp [hasDirective, (noted_setting h3).2]
      | some b =>
        cases b with
        | false => rfl
        | true => exact absurd hc hv
    simp only [ht, ht0, n2, and_false, Bool.false_eq_true, if_false]
    refine sim_wrap (by rw [← n2]; exact hn) hs hch (lead_free hq rfl) (hX.1.cat (sim_nodeNil ?_)) hX.2.cat
    exact sim_argsDoc (sim_hush n6) (sim_hush n8) n9 (hush_bland r).1 (voiced_test items) (voiced_group n7) hI
  | .func a kw pa l items r b, hn, hq => by
    intro cx h hh hv hch
    have hs := simple_voiced _ hn h hh
    obtain ⟨n1, n2, n3, n4, n5, n6, n7, ⟨n8, n9⟩, n10⟩ := id hn
    have hB := ((sim_expr hN b n10 (fun h => (by have := hq h; simp_all [Expr.comments])) : SimE o N q b)).free n8
      (bodyCx cx) mild_hush (by simp [bodyCx])
    have hI := sim_items hN items n6 (fun _ => n5 : True → _) (plainCx cx) false (by simp [plainCx]) rfl
    have hI' := sim_items hN items n6 (fun _ => n5 : q → _) (plainCx cx) false (by simp [plainCx]) rfl
    rw [fmt, Expr.voiced, fmt]
    simp only [n2, voiced_isBraced, voiced_newline n9]
    refine sim_wrap (by rw [← n2]; exact hn) hs hch (lead_free hq rfl) (Sim.group ((sim_mild hh n3).cat
      (Sim.cat ?_ (sim_space.cat (sim_body hN _ _ hB.1))))) starts_mild.cat.group
    split
    · exact (sim_paramsDoc (sim_hush n4) (sim_hush n7) hI).noSoft
    · exact sim_paramsDoc (sim_hush n4) (sim_hush n7) hI'
  | .ite a kw l c r t, hn, hq => by
    intro cx h hh hv hch
    have hs := simple_voiced _ hn h hh
    obtain ⟨n1, n2, n3, n4, n5, n6, ⟨n7, n8⟩, n9⟩ := id hn
    have hC := ((sim_expr hN c n5 (fun h => (by have := hq h; simp_all [Expr.comments])) : SimE o N q c)).free n4
      (plainCx cx) mild_hush (by simp [plainCx])
    have hT := ((sim_expr hN t n9 (fun h => (by have := hq h; simp_all [Expr.comments])) : SimE o N q t)).free n7
      (bodyCx cx) mild_hush (by simp [bodyCx])
    rw [fmt, Expr.voiced, fmt]
    simp only [voiced_isBraced, forceBraces_voiced n8]
    exact sim_wrap hn hs hch (lead_free hq rfl) (Sim.group ((sim_mild hh n2).cat (sim_space.cat ((sim_hush n3).cat
      ((sim_soft hC.1).group.cat ((sim_hush n6).cat (sim_space.cat (sim_body hN _ _ hT.1)))))))) starts_mild.cat.group
  | .itee a kw l c r t ea el e, hn, hq => by
    intro cx h hh hv hch
    have hs := simple_voiced _ hn h hh
    obtain ⟨n1, n2, n3, n4, n5, n6, n7, ⟨n8, n9⟩, n10, n11, n12, ⟨n13, n14⟩, n15⟩ := id hn
    have hC := ((sim_expr hN c n6 (fun h => (by have := hq h; simp_all [Expr.comments])) : SimE o N q c)).free n5
      (plainCx cx) mild_hush (by simp [plainCx])
    have hT := ((sim_expr hN t n10 (fun h => (by have := hq h; simp_all [Expr.comments])) : SimE o N q t)).free n8
      (bodyCx cx) mild_hush (by simp [bodyCx])
    have hE := fun b : Option Bool => ((sim_expr hN e n15 (fun h => (by have := hq h; simp_all [Expr.comments])) : SimE o N q e)).free n13
      { bodyCx cx with braces := b } mild_hush (by simp [bodyCx])
    rw [fmt, Expr.voiced, fmt]
    simp only [n2, voiced_isBraced, voiced_isIf, forceBraces_voiced2 n9 n12 n14]
    exact sim_wrap (by rw [← n2]; exact hn) hs hch (lead_free hq rfl) (Sim.group ((sim_mild hh n3).cat (sim_space.cat
      ((sim_hush n4).cat ((sim_soft hC.1).group.cat ((sim_hush n7).cat (sim_space.cat ((sim_body hN _ _ hT.1).cat
        (sim_space.cat (sim_nodeNil ((sim_hush n11).cat (sim_space.cat (sim_body hN _ _ (hE _).1))))))))))))) starts_mild.cat.group
  | .for_ a kw l v i s r b, hn, hq => by
    intro cx h hh hv hch
    have hs := simple_voiced _ hn h hh
    obtain ⟨n1, n2, n3, n4, n5, n6, n7, n8, n9, n10, n11⟩ := id hn
    have hV := ((sim_expr hN v n5 (fun h => (by have := hq h; simp_all [Expr.comments])) : SimE o N q v)).free n4
      (plainCx cx) mild_hush (by simp [plainCx])
    have hS := ((sim_expr hN s n8 (fun h => (by have := hq h; simp_all [Expr.comments])) : SimE o N q s)).free n7
      (plainCx cx) mild_hush (by simp [plainCx])
    have hB := ((sim_expr hN b n11 (fun h => (by have := hq h; simp_all [Expr.comments])) : SimE o N q b)).free n10
      (bodyCx cx) mild_hush (by simp [bodyCx])
    rw [fmt, Expr.voiced, fmt]
    simp only [voiced_isBraced]
    exact sim_wrap hn hs hch (lead_free hq rfl) (Sim.group ((sim_mild hh n2).cat (sim_space.cat ((sim_hush n3).cat
      (hV.1.cat (sim_space.cat ((sim_hush n6).cat (sim_space.cat (hS.1.cat ((sim_hush n9).cat (sim_space.cat
        (sim_body hN _ _ hB.1)))))))))))) starts_mild.cat.group
  | .while_ a kw l c r b, hn, hq => by
    intro cx h hh hv hch
    have hs := simple_voiced _ hn h hh
    obtain ⟨n1, n2, n3, n4, n5, n6, n7, n8⟩ := id hn
    have hC := ((sim_expr hN c n5 (fun h => (by have := hq h; simp_all [Expr.comments])) : SimE o N q c)).free n4
      (plainCx cx) mild_hush (by simp [plainCx])
    have hB := ((sim_expr hN b n8 (fun h => (by have := hq h; simp_all [Expr.comments])) : SimE o N q b)).free n7
      (bodyCx cx) mild_hush (by simp [bodyCx])
    rw [fmt, Expr.voiced, fmt]
    simp only [voiced_isBraced]
    exact sim_wrap hn hs hch (lead_free hq rfl) (Sim.group ((sim_mild hh n2).cat (sim_space.cat ((sim_hush n3).cat
      ((sim_soft hC.1).group.cat ((sim_hush n6).cat (sim_space.cat (sim_body hN _ _ hB.1)))))))) starts_mild.cat.group
  | .repeat_ a kw b, hn, hq => by
    intro cx h hh hv hch
    have hs := simple_voiced _ hn h hh
    obtain ⟨n1, n2, n3, n4⟩ := id hn
    have hB := ((sim_expr hN b n4 (fun h => (by have := hq h; simp_all [Expr.comments])) : SimE o N q b)).free n3
      (bodyCx cx) mild_hush (by simp [bodyCx])
    rw [fmt, Expr.voiced, fmt]
    simp only [voiced_isBraced]
    exact sim_wrap hn hs hch (lead_free hq rfl) (Sim.group ((sim_mild hh n2).cat (sim_space.cat
      (sim_body hN _ _ hB.1)))) starts_mild.cat.group
theorem sim_exprs {q : Prop} (hN : 2 ≤ N) : (es : Exprs) → es.Noted o N → (q → es.comments = []) → ∀ (cx : Cx) (top first : Bool),
    SimL N first q (fmtExprs o cx top first es) (fmtExprs o cx top first (es.voiced N))
  | .nil, _, _, _, _, _ => sim_nil.mono
  | .cons e es, hn, hq, cx, top, first => by
    have hE := (sim_expr hN e hn.1 (fun h => (by have := hq h; simp_all [Exprs.comments])) : SimE o N q e)
    have hEs := sim_exprs hN es hn.2 (fun h => (by have := hq h; simp_all [Exprs.comments]) : q → _) cx top false
    rw [fmtExprs, Exprs.voiced]
    have h1 := like_notes (o := o) (N := N) cx top e (es.voiced N) e.ann.leading (linesBefore e.tokens) first
    rw [voiced_length_pos] at h1
    have h2 := (hE { dir := true, eq := true, inArg := cx.inArg, effect := top || 0 < es.length }
      (fresh (lastGap (linesBefore e.tokens) e.ann.leading)) (mild_fresh _) (by simp) (by simp)).1
    refine SimL.like ?_ (Like.refl _) (h1.trans ((Like.refl _).cat like_assoc.symm))
    cases first with
    | true =>
      refine (SimL.cat (l := true) ?_ hEs).like like_nil like_nil
      cases hl : !e.ann.leading.isEmpty with
      | true => rw [hl] at h2; exact h2
      | false => rw [hl] at h2; exact Sim.mono h2
    | false => exact SimL.after (sim_sep _ _) (h2.cat hEs) (fun _ m i x hx => sep_breaks _ _ hx)
theorem sim_items {q : Prop} (hN : 2 ≤ N) : (xs : Items) → xs.Noted o N → (q → xs.comments = []) → ∀ (vcx : Cx) (dir : Bool),
    vcx.table ≠ some true → vcx.chain = false →
    Pairs (SimItem N q) (fmtItems o vcx dir xs) (fmtItems o vcx dir (xs.voiced N))
  | .nil, _, _, _, _, _, _ => .nil
  | .last x, hn, hq, vcx, dir, hv, hc =>
    .cons (sim_item (sep := none) hn (sim_arg hN x hn (fun h => (by have := hq h; simp_all [Items.comments]))) hv hc nofun) .nil
  | .cons x s xs, hn, hq, vcx, dir, hv, hc =>
    .cons (sim_item (sep := some s) hn.1 (sim_arg hN x hn.1 (fun h => (by have := hq h; simp_all [Items.comments]))) hv hc
        (fun u hu => by cases hu; exact hn.2.1))
      (sim_items hN xs hn.2.2 (fun h => (by have := hq h; simp_all [Items.comments])) vcx dir hv hc)
theorem sim_arg {q : Prop} (hN : 2 ≤ N) : (x : Arg) → x.Noted o N → (q → x.comments = []) → SimA o N q x
  | .hole a, _, _ => ⟨fun _ _ _ => sim_nil, rfl, rfl⟩
  | .val a e, hn, hq => by
    have hE := (sim_expr hN e hn.2.2.2 (fun h => (by have := hq h; simp_all [Arg.comments])) : SimE o N q e)
    refine ⟨fun vcx hv hc => ?_, (voiced_linesBefore e).symm, (voiced_newline (direct_quiet hn.2.2.1)).symm⟩
    rw [fmtArg, Arg.voiced, fmtArg]
    exact (hE.free hn.2.1 vcx mild_hush hv).1
  | .name a na n p, hn, hq => by
    obtain ⟨n1, n2, ⟨n3, n4⟩, n5, n6⟩ := hn
    have hE := (sim_expr hN n n5 (fun h => (by have := hq h; simp_all [Arg.comments])) : SimE o N q n)
    refine ⟨fun vcx hv hc => ?_, arg_head, arg_newline n4⟩
    rw [fmtArg, Arg.voiced, fmtArg, n2]
    exact (sim_nodeNil ((hE.free n3 _ mild_hush (by simp [plainCx])).1.cat (sim_space.cat (sim_hush n6)))).cat sim_space
  | .named a na n p e, hn, hq => by
    obtain ⟨n1, n2, ⟨n3, n4⟩, n5, n6, n7, n8⟩ := hn
    have hE := (sim_expr hN n n5 (fun h => (by have := hq h; simp_all [Arg.comments])) : SimE o N q n)
    have hF := (sim_expr hN e n8 (fun h => (by have := hq h; simp_all [Arg.comments])) : SimE o N q e)
    refine ⟨fun vcx hv hc => ?_, arg_head, arg_newline n4⟩
    rw [fmtArg, Arg.voiced, fmtArg, n2]
    exact (sim_nodeNil ((hE.free n3 _ mild_hush (by simp [plainCx])).1.cat (sim_space.cat (sim_hush n6)))).cat
      (sim_space.cat (hF.free n7 vcx mild_hush hv).1)
  | .pdef a n da p e, hn, hq => by
    obtain ⟨n1, ⟨n3, n4⟩, n5, n2, n6, n7, n8⟩ := hn
    have hE := (sim_expr hN n n5 (fun h => (by have := hq h; simp_all [Arg.comments])) : SimE o N q n)
    have hF := (sim_expr hN e n8 (fun h => (by have := hq h; simp_all [Arg.comments])) : SimE o N q e)
    refine ⟨fun vcx hv hc => ?_, arg_head, arg_newline n4⟩
    rw [fmtArg, Arg.voiced, fmtArg, n2]
    exact (hE.free n3 _ mild_hush (by simp [plainCx])).1.cat (sim_space.cat (sim_nodeNil ((sim_hush n6).cat
      (sim_space.cat (hF.free n7 vcx mild_hush hv).1))))
end

end Verif.Format
