import Verif.Spec.Calm
import Verif.Lemmas.FormatMain

/-!
# Calm expressions are tame
-/

namespace Verif.Format
open Verif.Syntax Verif.Directive

variable {o : Opts}

theorem ordinary_dir {a : Ann} (h : a.ordinary o = true) (dir : Bool) {d : Directive}
    (hd : d = .skip ∨ d = .table) : hasDirective o dir a d = false := by
  simp only [Ann.ordinary, Bool.and_eq_true, Bool.not_eq_true'] at h
  have : hasDirective o dir a d = (dir && a.asks o d) := rfl
  rw [this]
  rcases hd with rfl | rfl
  · rw [h.1, Bool.and_false]
  · rw [h.2, Bool.and_false]

theorem ordinary_ann {e : Expr} (h : e.ordinary o = true) : e.ann.ordinary o = true := by
  cases e <;> simp_all [Expr.ordinary, Expr.ann]

theorem listed_setting {f : Expr} (h : listed o f = false) :
    inSetting o.skip f = false ∧ inSetting o.table f = false := by
  unfold listed at h
  unfold inSetting calleeName
  cases f with
  | atom b k t => cases k <;> simp_all
  | sel b k x p y =>
    cases k with
    | extract => simp
    | «namespace» =>
      cases y with
      | atom c k t => cases k <;> simp_all
      | _ => simp
  | _ => simp

theorem ordinary_suppressed {e : Expr} (h : e.ordinary o = true) (cx : Cx) :
    suppressed o cx e = false := by
  have ha := ordinary_dir (ordinary_ann h) cx.dir (.inl rfl)
  unfold suppressed
  split
  · simp only [Expr.ann] at ha
    simp only [Expr.ordinary, Bool.and_eq_true, Bool.not_eq_true'] at h
    rw [ha, (listed_setting h.1.1.2).1]
    rfl
  · exact ha

theorem ordinary_kept {e : Expr} (h : e.ordinary o = true) (cx : Cx) : kept o cx e = false := by
  unfold kept
  rw [ordinary_suppressed h, Bool.and_false]

theorem ordinary_skipArg {dir : Bool} {a : Ann} (h : a.ordinary o = true) {p : Prop} :
    hasDirective o dir a .skip = true → p := by
  rw [ordinary_dir h dir (.inl rfl)]
  intro h
  cases h

mutual
theorem tame_calm (g : Region) (cx : Cx) (ht : cx.table ≠ some true) : (e : Expr) →
    e.calm = true → e.ordinary o = true → Tame true o g cx e
  | .atom _ _ _, _, _ => by rw [Tame]; trivial
  | .str .., _, h => by rw [Tame, ordinary_kept h]; trivial
  | .paren _ _ e _, hc, h => by
    rw [Tame, ordinary_kept h]
    exact tame_calm _ _ (by simp [bodyCx]) e hc ((Bool.and_eq_true _ _).mp h).2
  | .braced _ _ es _, hc, h => by
    rw [Tame, ordinary_kept h]
    exact tames_calm _ _ _ es hc ((Bool.and_eq_true _ _).mp h).2
  | .unary _ p e, hc, h => by
    rw [Tame, ordinary_kept h]
    exact tame_calm _ _ (by split <;> simp [bodyCx, plainCx]) e hc ((Bool.and_eq_true _ _).mp h).2
  | .binary a x p y, hc, h => by
    have hk := ordinary_kept h cx
    simp only [Expr.calm, Expr.ordinary, Bool.and_eq_true] at hc h
    rw [Tame, hk]
    refine ⟨fun _ _ => by simpa using hc.1.1, ?_, ?_⟩
    · exact tame_calm _ _ (by simp [opCx]) x hc.1.2 h.1.2
    · refine tame_calm _ _ ?_ y hc.2 h.2
      simp only
      rw [ordinary_dir h.1.1 _ (.inr rfl)]
      simp
  | .sel _ k x _ y, hc, h => by
    have hk := ordinary_kept h cx
    simp only [Expr.calm, Expr.ordinary, Bool.and_eq_true] at hc h
    rw [Tame, hk]
    refine ⟨fun _ _ => by simpa using hc.1.1.1, fun _ hn _ => ?_, ?_, ?_⟩
    · subst hn
      simpa using hc.1.1.2
    · exact tame_calm _ _ (by simp [plainCx]) x hc.1.2 h.1.2
    · exact tame_calm _ _ (by simp [plainCx]) y hc.2 h.2
  | .call a k f aa _ items _, hc, h => by
    have hk := ordinary_kept h cx
    simp only [Expr.calm, Expr.ordinary, Bool.and_eq_true] at hc h
    rw [Tame, hk]
    refine ⟨fun _ _ => ⟨by simpa using hc.1.1.1, by simpa using hc.1.1.2⟩,
      tame_calm _ _ (by simp [plainCx]) f hc.1.2 h.1.2,
      tameItems_calm _ _ (by simp) items hc.2 h.2, fun hT => ?_⟩
    exfalso
    unfold isTable at hT
    have hset := (listed_setting (by simpa using h.1.1.2)).2
    rw [ordinary_dir h.1.1.1 _ (.inr rfl), hset] at hT
    cases hct : cx.table with
    | none => simp [hct] at hT
    | some b =>
      cases b with
      | true => exact ht hct
      | false => simp [hct] at hT
  | .func _ _ _ _ items _ b, hc, h => by
    have hk := ordinary_kept h cx
    simp only [Expr.calm, Expr.ordinary, Bool.and_eq_true] at hc h
    rw [Tame, hk]
    exact ⟨tameItems_calm _ _ (by simp [plainCx]) items hc.1 h.1.2,
      fun _ => tame_calm _ _ (by simp [bodyCx]) b hc.2 h.2,
      tame_calm _ _ (by simp [bodyCx]) b hc.2 h.2⟩
  | .ite _ _ _ c _ t, hc, h => by
    have hk := ordinary_kept h cx
    simp only [Expr.calm, Expr.ordinary, Bool.and_eq_true] at hc h
    rw [Tame, hk]
    exact ⟨tame_calm _ _ (by simp [plainCx]) c hc.1 h.1.2,
      fun _ => tame_calm _ _ (by simp [bodyCx]) t hc.2 h.2,
      tame_calm _ _ (by simp [bodyCx]) t hc.2 h.2⟩
  | .itee _ _ _ c _ t ea _ e, hc, h => by
    have hk := ordinary_kept h cx
    simp only [Expr.calm, Expr.ordinary, Bool.and_eq_true] at hc h
    rw [Tame, hk]
    exact ⟨tame_calm _ _ (by simp [plainCx]) c hc.1.1.2 h.1.1.2,
      fun _ => ⟨tame_calm _ _ (by simp [bodyCx]) t hc.1.2 h.1.2,
        fun _ _ => by simpa using hc.1.1.1.1⟩,
      tame_calm _ _ (by simp [bodyCx]) t hc.1.2 h.1.2,
      fun _ _ => by simpa using hc.1.1.1.2,
      fun _ => tame_calm _ _ (by simp [bodyCx]) e hc.2 h.2,
      tame_calm _ _ (by simp [bodyCx]) e hc.2 h.2⟩
  | .for_ _ _ _ v _ s _ b, hc, h => by
    have hk := ordinary_kept h cx
    simp only [Expr.calm, Expr.ordinary, Bool.and_eq_true] at hc h
    rw [Tame, hk]
    exact ⟨tame_calm _ _ (by simp [plainCx]) v hc.1.1 h.1.1.2,
      tame_calm _ _ (by simp [plainCx]) s hc.1.2 h.1.2,
      tame_calm _ _ (by simp [bodyCx]) b hc.2 h.2,
      fun _ => tame_calm _ _ (by simp [bodyCx]) b hc.2 h.2⟩
  | .while_ _ _ _ c _ b, hc, h => by
    have hk := ordinary_kept h cx
    simp only [Expr.calm, Expr.ordinary, Bool.and_eq_true] at hc h
    rw [Tame, hk]
    exact ⟨tame_calm _ _ (by simp [plainCx]) c hc.1 h.1.2,
      tame_calm _ _ (by simp [bodyCx]) b hc.2 h.2,
      fun _ => tame_calm _ _ (by simp [bodyCx]) b hc.2 h.2⟩
  | .repeat_ _ _ b, hc, h => by
    rw [Tame, ordinary_kept h]
    exact ⟨tame_calm _ _ (by simp [bodyCx]) b hc ((Bool.and_eq_true _ _).mp h).2,
      fun _ => tame_calm _ _ (by simp [bodyCx]) b hc ((Bool.and_eq_true _ _).mp h).2⟩
theorem tames_calm (g : Region) (cx : Cx) (top : Bool) : (es : Exprs) →
    es.calm = true → es.ordinary o = true → Tames true o g cx top es
  | .nil, _, _ => by rw [Tames]; trivial
  | .cons e es, hc, h => by
    simp only [Exprs.calm, Exprs.ordinary, Bool.and_eq_true] at hc h
    rw [Tames]
    exact ⟨tame_calm _ _ (by simp) e hc.1 h.1, tames_calm _ _ _ es hc.2 h.2⟩
theorem tameItems_calm (cx : Cx) (dir : Bool) (ht : cx.table ≠ some true) : (xs : Items) →
    xs.calm = true → xs.ordinary o = true → TameItems true o cx dir xs
  | .nil, _, _ => by rw [TameItems]; trivial
  | .last x, hc, h => by
    rw [TameItems]
    exact tameArg_calm _ _ ht x hc h
  | .cons x _ xs, hc, h => by
    simp only [Items.calm, Items.ordinary, Bool.and_eq_true] at hc h
    rw [TameItems]
    exact ⟨tameArg_calm _ _ ht x hc.1 h.1, tameItems_calm _ _ ht xs hc.2 h.2⟩
theorem tameArg_calm (cx : Cx) (dir : Bool) (ht : cx.table ≠ some true) : (x : Arg) →
    x.calm = true → x.ordinary o = true → TameArg true o cx dir x
  | .hole _, _, _ => by rw [TameArg]; trivial
  | .val a e, hc, h => by
    simp only [Arg.calm, Arg.ordinary, Bool.and_eq_true] at hc h
    rw [TameArg]
    exact ⟨ordinary_skipArg h.1, tame_calm _ _ ht e hc h.2⟩
  | .name _ _ n _, hc, h => by
    simp only [Arg.calm, Arg.ordinary, Bool.and_eq_true] at hc h
    rw [TameArg]
    exact ⟨ordinary_skipArg h.1, tame_calm _ _ (by simp [plainCx]) n hc h.2⟩
  | .named _ _ n _ e, hc, h => by
    simp only [Arg.calm, Arg.ordinary, Bool.and_eq_true] at hc h
    rw [TameArg]
    exact ⟨ordinary_skipArg h.1.1, tame_calm _ _ (by simp [plainCx]) n hc.1 h.1.2,
      tame_calm _ _ ht e hc.2 h.2⟩
  | .pdef _ n _ _ e, hc, h => by
    simp only [Arg.calm, Arg.ordinary, Bool.and_eq_true] at hc h
    rw [TameArg]
    exact ⟨ordinary_skipArg h.1.1, tame_calm _ _ (by simp [plainCx]) n hc.1 h.1.2,
      tame_calm _ _ ht e hc.2 h.2⟩
end

end Verif.Format
