import Verif.Lemmas.StableBase

/-!
# Documents of programs without comments
-/

namespace Verif.Format
open Verif.Syntax

variable {o : Opts} {m : PMode} {i : Nat} {x : List El} {d d' : Doc}

/-! ## Nodes without comments -/

theorem prints_nil_cat : Prints m i (.nil ⊹ d) x ↔ Prints m i d x := by
  constructor
  · rintro ⟨a, b, rfl, h, hb⟩
    have h : a = [] := h
    subst h
    exact hb
  · intro h
    exact ⟨[], x, rfl, rfl, h⟩

theorem prints_cat_nil : Prints m i (d ⊹ .nil) x ↔ Prints m i d x := by
  constructor
  · rintro ⟨a, b, rfl, ha, h⟩
    have h : b = [] := h
    subst h
    simpa using ha
  · intro h
    exact ⟨x, [], by simp, h, rfl⟩

/-- The documents have the same layouts. -/
structure Same (d' d : Doc) : Prop where
  prints : ∀ m i x, Prints m i d' x ↔ Prints m i d x
  breaks : d'.willBreak = d.willBreak
  fixed : d'.fixed = d.fixed

theorem same_node : Same (nodeDoc {} d .nil) d := by
  refine ⟨fun m i x => ?_, ?_, ?_⟩
  · unfold nodeDoc
    simp only [leadingDoc, trailingDoc, prints_nil_cat]
    constructor
    · rintro ⟨a, b, rfl, ha, hb⟩
      rw [prints_nil_cat] at hb
      have hb : b = [] := hb
      subst hb
      simpa using ha
    · intro h
      exact ⟨x, [], by simp, h, prints_nil_cat.2 rfl⟩
  · simp [nodeDoc, leadingDoc, trailingDoc, Doc.willBreak]
  · simp [nodeDoc, leadingDoc, trailingDoc, Doc.fixed]

theorem Same.trans {a b c : Doc} (h : Same a b) (h' : Same b c) : Same a c :=
  ⟨fun m i x => (h.prints m i x).trans (h'.prints m i x), h.breaks.trans h'.breaks,
    h.fixed.trans h'.fixed⟩

theorem simple_suppressed {e : Expr} (h : e.Simple o) (cx : Cx) : suppressed o cx e = false := by
  have hd : ∀ e : Expr, e.Simple o → hasDirective o cx.dir e.ann .skip = false := by
    intro e h
    rw [h.ann]
    simp [hasDirective]
  cases e with
  | call a k f aa l items r =>
    cases k with
    | call =>
      have h1 := hd _ h
      simp only [Expr.ann] at h1
      simp only [suppressed, h1, Bool.false_or]
      have h2 := h.2.2.1
      unfold inSetting calleeName
      unfold listed at h2
      split <;> rename_i hq <;> split at hq <;> simp_all
    | _ => exact hd _ h
  | _ => exact hd _ h

theorem simple_inTable {a : Ann} {k : CallKind} {f : Expr} {aa : Ann} {l : Token} {items : Items} {r : Token}
    (h : (Expr.call a k f aa l items r).Simple o) : inSetting o.table f = false := by
  have h2 := h.2.2.1
  unfold inSetting calleeName
  unfold listed at h2
  split <;> rename_i hq <;> split at hq <;> simp_all

theorem same_wrap {e : Expr} (h : e.Simple o) (cx : Cx) : Same (wrapDoc o cx e d) d := by
  unfold wrapDoc
  rw [simple_suppressed h, h.ann]
  split
  · refine ⟨fun m i x => prints_cat_nil, ?_, ?_⟩ <;> simp [trailingDoc, Doc.willBreak, Doc.fixed]
  · have : (if e.isBraced then Doc.nil else danglingSoft ({} : Ann).dangling) = .nil := by
      split <;> rfl
    simp only [Bool.false_eq_true, if_false, this]
    exact same_node

theorem same_arg {y : Arg} (h : y.Simple o) (dir : Bool) : Same (argDoc o dir y d) d := by
  unfold argDoc
  rw [h.ann]
  simp only [hasDirective, List.any_nil, Bool.and_false, Bool.false_eq_true, if_false]
  exact same_node

section
variable {s s' : W} {ts ts' : List Token} {a a' : Doc}

theorem Step.same (h : Step m i d' x s ts s' ts') (hs : Same d' d) : Step m i d x s ts s' ts' :=
  ⟨(hs.prints m i x).1 h.prints, h.inline, fun hm => by rw [← hs.breaks]; exact h.calm hm, h.walks⟩

theorem Refines.same (h : Refines d' d) (hs : Same a' d') (hs' : Same a d) : Refines a' a :=
  fun m i x hi hx => (hs'.prints m i x).2 (h m i x hi ((hs.prints m i x).1 hx))

theorem Again.same (h : Again m i d d' x) (hs : Same a d) (hs' : Same a' d') : Again m i a a' x :=
  ⟨(hs'.prints m i x).2 h.prints, fun hm => by rw [hs'.breaks]; exact h.calm hm,
    h.refines.same hs' hs⟩

theorem AgainIn.same (h : AgainIn m i d d' x) (hs : Same a d) (hs' : Same a' d') : AgainIn m i a a' x := by
  refine ⟨(hs'.prints m i x).2 h.prints, fun hm => by rw [hs'.breaks]; exact h.calm hm, ?_⟩
  have h1 := h.ref
  unfold RefIn at *
  split at h1
  · rename_i hm
    rw [if_pos hm]
    exact ⟨fun m i x hn hx => (hs.prints _ i x).2 (h1.1 m i x hn ((hs'.prints m i x).1 hx)),
      fun i x hi hx => (hs.prints _ i x).2 (h1.2 i x hi ((hs'.prints _ i x).1 hx))⟩
  · rename_i hm
    rw [if_neg hm]
    exact h1.same hs' hs
end

/-! ## The outermost constructors -/

/-- Braces around a name. -/
def Expr.isCup : Expr → Bool
  | .braced _ _ (.cons (.atom _ .rIdentifier _) .nil) _ => true
  | _ => false

def Expr.isCall : Expr → Bool
  | .call .. => true
  | _ => false

def Expr.isStr : Expr → Bool
  | .str .. => true
  | _ => false

/-- A name. -/
def Expr.isSym : Expr → Bool
  | .atom _ .rIdentifier _ => true
  | _ => false

/-- What the rules look at in an expression. -/
structure Head where
  braced : Bool
  isIf : Bool
  terminal : Bool
  chain : Bool
  call : Bool
  str : Bool
  sym : Bool
  cup : Bool
  groupable : Bool
  callee : Option (List Byte)

def Expr.head (e : Expr) : Head :=
  ⟨e.isBraced, e.isIf, e.isTerminal, e.isChain, e.isCall, e.isStr, e.isSym, e.isCup, groupable e,
    calleeName e⟩

theorem head_eq {e e' : Expr} (h : e'.head = e.head) :
    e'.isBraced = e.isBraced ∧ e'.isIf = e.isIf ∧ e'.isTerminal = e.isTerminal ∧ e'.isChain = e.isChain ∧
    e'.isCall = e.isCall ∧ e'.isStr = e.isStr ∧ e'.isSym = e.isSym ∧ e'.isCup = e.isCup ∧
    groupable e' = groupable e ∧ calleeName e' = calleeName e := by
  simpa only [Expr.head, Head.mk.injEq] using h

theorem listed_callee (f : Expr) :
    listed o f = (match calleeName f with | some n => o.skip n || o.table n | none => false) := by
  unfold listed calleeName
  split <;> simp_all

theorem listed_head {f f' : Expr} (h : f'.head = f.head) : listed o f' = listed o f := by
  rw [listed_callee, listed_callee, (head_eq h).2.2.2.2.2.2.2.2.2]

/-! ## The mode of the group around an expression does not matter -/

theorem fixed_braces (b : Bool) (h : d.fixed = true) (hb : b = true) : (braceDoc b d).fixed = true := by
  subst hb
  simp [braceDoc, hardBlock, Doc.fixed, h]

theorem fixed_catAll {ds : List Doc} (h : ∀ d ∈ ds, d.fixed = true) : (catAll ds).fixed = true := by
  induction ds with
  | nil => rfl
  | cons d ds ih =>
    simp only [catAll, Doc.fixed, Bool.and_eq_true]
    exact ⟨h d (by simp), ih (fun e he => h e (by simp [he]))⟩

theorem fixed_sep (y : ItemDoc) : y.sepDoc.fixed = true := by
  unfold ItemDoc.sepDoc; split <;> rfl

theorem fixed_testJoin {ds : List ItemDoc} (h : ∀ d ∈ ds, d.doc.fixed = true) :
    (testJoin ds).fixed = true := by
  induction ds with
  | nil => rfl
  | cons d ds ih =>
    have h1 : d.full.fixed = true := by
      simp [ItemDoc.full, Doc.fixed, h d (by simp), fixed_sep]
    cases ds with
    | nil => exact h1
    | cons e ds =>
      simp only [testJoin, Doc.fixed, h1, Bool.true_and]
      exact ih (fun e he => h e (by simp [he]))

theorem fixed_args {k : CallKind} {l r : Token} {items : Items} {ds : List ItemDoc}
    (h : ∀ d ∈ ds, d.doc.fixed = true) : (argsDoc o k {} l items ds r).fixed = true := by
  unfold argsDoc
  split
  · rfl
  · split
    · simp [Doc.fixed, fixed_testJoin h, tokDoc]
    · dsimp only
      split
      · rfl
      · split
        · rfl
        · split
          · rfl
          · rfl

theorem fixed_params {l r : Token} {ds : List ItemDoc} : (paramsDoc o {} l ds r).fixed = true := by
  unfold paramsDoc
  rw [same_node.fixed]
  split <;> rfl

mutual
theorem fixed_fmt : (e : Expr) → (cx : Cx) → e.Simple o → cx.table = none →
    (cx.chain && e.isChain) = false → (fmt o cx e).fixed = true
  | .atom a k t, cx, h, ht, hc => by
    rw [fmt, (same_wrap h cx).fixed]; rfl
  | .str a p c l, cx, h, ht, hc => by
    cases c <;> exact (same_wrap h cx).fixed
  | .paren a l e r, cx, h, ht, hc => by
    rw [fmt, (same_wrap h cx).fixed]
    have := fixed_fmt e (bodyCx cx) h.2.2.1 rfl rfl
    simp only [Doc.fixed, tokDoc, Bool.true_and, Bool.and_true]
    split
    · simp [hardBlock, Doc.fixed, this]
    · exact this
  | .braced a l es r, cx, h, ht, hc => by
    rw [fmt, (same_wrap h cx).fixed]
    have := fixed_fmts es cx false true h.2.2.1
    unfold bracedDoc
    split
    · rw [h.1]; rfl
    · split
      · rfl
      · simp [Doc.fixed, tokDoc, hardBlock, this]
  | .unary a p e, cx, h, ht, hc => by
    rw [fmt, (same_wrap h cx).fixed]
    have h1 : e.ann.any = false := by rw [h.2.2.ann]; rfl
    simp only [Doc.fixed, tokDoc, Bool.true_and, h1, Bool.false_eq_true, if_false, Bool.and_eq_true]
    refine ⟨by unfold maybeSpace; split <;> rfl, ?_⟩
    split
    · exact fixed_fmt e _ h.2.2 rfl rfl
    · exact fixed_fmt e _ h.2.2 rfl rfl
  | .binary a x p y, cx, h, ht, hc => by
    rw [fmt, (same_wrap h cx).fixed]
    split
    · rfl
    · split
      · rfl
      · split
        · rename_i hp
          simp only [Expr.isChain, hp, Bool.and_true] at hc
          simp only [hc, Bool.false_eq_true, if_false]
          rfl
        · rfl
  | .sel a k x p y, cx, h, ht, hc => by
    rw [fmt, (same_wrap h cx).fixed]; rfl
  | .call a k f aa l items r, cx, h, ht, hc => by
    rw [fmt, (same_wrap h cx).fixed]
    have hf := fixed_fmt f (plainCx cx) h.2.2.2.1 rfl rfl
    have h1 := simple_inTable h
    obtain ⟨rfl, rfl, h2, h3, h4, h5, h6⟩ := h
    simp only [Doc.fixed, hf, Bool.true_and, same_node.fixed, ht, h1, hasDirective]
    simp only [Option.getD_none, List.any_nil, Bool.and_false, Bool.or_false, Bool.false_eq_true,
      and_false, if_false]
    exact fixed_args (fixed_fmtItems items _ true h5 rfl rfl)
  | .func a kw pa l items r b, cx, h, ht, hc => by
    rw [fmt, (same_wrap h cx).fixed]; rfl
  | .ite a kw l c r t, cx, h, ht, hc => by
    rw [fmt, (same_wrap h cx).fixed]; rfl
  | .itee a kw l c r t ea el e, cx, h, ht, hc => by
    rw [fmt, (same_wrap h cx).fixed]; rfl
  | .for_ a kw l v i s r b, cx, h, ht, hc => by
    rw [fmt, (same_wrap h cx).fixed]; rfl
  | .while_ a kw l c r b, cx, h, ht, hc => by
    rw [fmt, (same_wrap h cx).fixed]; rfl
  | .repeat_ a kw b, cx, h, ht, hc => by
    rw [fmt, (same_wrap h cx).fixed]; rfl
theorem fixed_fmts : (es : Exprs) → (cx : Cx) → (top first : Bool) → es.Simple o →
    (fmtExprs o cx top first es).fixed = true
  | .nil, cx, top, first, h => rfl
  | .cons e es, cx, top, first, h => by
    simp only [fmtExprs, Doc.fixed, Bool.and_eq_true]
    refine ⟨?_, fixed_fmt e _ h.1 rfl rfl, fixed_fmts es cx top false h.2⟩
    split
    · rfl
    · unfold stmtSep
      split
      · split
        · rfl
        · split <;> rfl
      · split <;> rfl
theorem fixed_fmtItems : (xs : Items) → (vcx : Cx) → (dir : Bool) → xs.Simple o → vcx.table = none →
    vcx.chain = false → ∀ d ∈ fmtItems o vcx dir xs, d.doc.fixed = true
  | .nil, vcx, dir, h, ht, hc => by simp [fmtItems]
  | .last y, vcx, dir, h, ht, hc => by
    simp only [fmtItems, List.mem_singleton]
    rintro _ rfl
    exact ((same_arg (o := o) h dir).fixed).trans (fixed_fmtArg y vcx h ht hc)
  | .cons y s xs, vcx, dir, h, ht, hc => by
    simp only [fmtItems, List.mem_cons]
    rintro _ (rfl | hd)
    · exact ((same_arg (o := o) h.1 dir).fixed).trans (fixed_fmtArg y vcx h.1 ht hc)
    · exact fixed_fmtItems xs vcx dir h.2.2 ht hc _ hd
theorem fixed_fmtArg : (y : Arg) → (vcx : Cx) → y.Simple o → vcx.table = none → vcx.chain = false →
    (fmtArg o vcx y).fixed = true
  | .hole a, vcx, h, ht, hc => rfl
  | .val a e, vcx, h, ht, hc => fixed_fmt e vcx h.2 ht (by rw [hc]; rfl)
  | .name a na n q, vcx, h, ht, hc => by
    obtain ⟨rfl, rfl, h1, h2⟩ := h
    simp only [fmtArg, Doc.fixed, danglingSoft, List.isEmpty_nil, if_true, same_node.fixed,
      fixed_fmt n (plainCx vcx) h1 rfl rfl, tokDoc, Bool.and_true]
  | .named a na n q e, vcx, h, ht, hc => by
    obtain ⟨rfl, rfl, h1, h2, h3⟩ := h
    simp only [fmtArg, Doc.fixed, danglingSoft, List.isEmpty_nil, if_true, same_node.fixed,
      fixed_fmt n (plainCx vcx) h1 rfl rfl, fixed_fmt e vcx h3 ht (by rw [hc]; rfl), tokDoc, Bool.and_true]
  | .pdef a n da q e, vcx, h, ht, hc => by
    obtain ⟨rfl, h1, rfl, h2, h3⟩ := h
    simp only [fmtArg, Doc.fixed, danglingSoft, List.isEmpty_nil, if_true, same_node.fixed,
      fixed_fmt n (plainCx vcx) h1 rfl rfl, fixed_fmt e vcx h3 ht (by rw [hc]; rfl), tokDoc, Bool.and_true]
end

end Verif.Format
