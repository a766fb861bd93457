import Verif.Spec.Becomes
import Verif.Spec.Format
import Verif.Lemmas.FormatSkip

/-!
# Rewritings of the formatting rules are permitted
-/

namespace Verif.Format
open Verif.Syntax

/-- The context of the rules says what the place says. -/
structure At (cx : Cx) (p : Place) : Prop where
  effect : cx.effect = p.effect
  eq : cx.eq = p.assign
  braces : cx.braces = none ∧ p.elseIf = false ∨ cx.braces = some true
  table : cx.table = some true → p.table = true

theorem At.body (cx : Cx) : At (bodyCx cx) .body := ⟨rfl, rfl, .inl ⟨rfl, rfl⟩, (fun h => by cases h)⟩

theorem At.plain (cx : Cx) : At (plainCx cx) {} := ⟨rfl, rfl, .inl ⟨rfl, rfl⟩, (fun h => by cases h)⟩

theorem asksSkip_mono {o : Opts} {dir : Bool} {e : Expr} (h : asksSkip o dir e = true) :
    asksSkip o true e = true := by
  cases dir with
  | true => exact h
  | false =>
    unfold asksSkip at h ⊢
    split at h <;> simp_all

theorem asksTable_mono {o : Opts} {dir tb : Bool} {a : Ann} {f : Expr}
    (h : asksTable o dir tb a f = true) : asksTable o true tb a f = true := by
  cases dir with
  | true => exact h
  | false =>
    unfold asksTable at h ⊢
    split at h <;> simp_all <;> grind

theorem kept_asks {o : Opts} {cx : Cx} {e : Expr} (h : kept o cx e = true) :
    asksSkip o true e = true := by
  unfold kept at h
  simp only [Bool.and_eq_true] at h
  rw [suppressed_eq] at h
  exact asksSkip_mono h.2

theorem hasDirective_asks {o : Opts} {dir : Bool} {a : Ann} {d : Directive.Directive}
    (h : hasDirective o dir a d = true) : a.asks o d = true := by
  unfold hasDirective at h
  simp only [Bool.and_eq_true] at h
  exact h.2

theorem orStays {o : Opts} {cx : Cx} {e e' : Expr} {P Q : Prop}
    (h : Unless (kept o cx e) e e' P) (hPQ : P → Q) : OrStays o e e' Q := by
  unfold Unless at h
  split at h
  · next hk => exact .inl ⟨kept_asks hk, h⟩
  · exact .inr (hPQ h)

theorem body_new (b b' : Expr) (force multi : Bool) :
    Body (force || multi) b b' (newBody b.isBraced force multi b') := by
  unfold Body newBody
  cases b.isBraced <;> cases force || multi <;> simp [wrapE, inBraces]

theorem body_loop (b b' : Expr) : Body true b b' (newBody b.isBraced true false b') :=
  body_new b b' true false

theorem isTable_asks {o : Opts} {cx : Cx} {p : Place} {a : Ann} {k : CallKind} {f : Expr}
    (hp : At cx p) (h : isTable o cx a k f = true) : asksTable o true p.table a f = true := by
  unfold isTable at h
  simp only [Bool.and_eq_true] at h
  have h2 := h.2
  have key : (p.table || (hasDirective o cx.dir a .table || inSetting o.table f)) = true := by
    cases ht : cx.table with
    | none => rw [ht] at h2; simp only [Option.getD_none] at h2; rw [h2, Bool.or_true]
    | some b =>
      rw [ht] at h2
      simp only [Option.getD_some] at h2
      rw [hp.table (by rw [ht, h2])]; rfl
  rw [isTable_eq] at key
  exact asksTable_mono key

theorem force_criteria {cx : Cx} {p : Place} (hp : At cx p) (t : Expr)
    (els : Option (Token × Expr)) (multi : Bool) (parts : List (List Token)) (bs : List Expr)
    (hc : forceBraces p.effect t els = false →
      p.effect = false ∧ parts.any onNewLine = false ∧
        bs.any (fun b => b.isBraced || b.isIf) = false) :
    criteria p parts bs = true →
      (cx.braces.getD (forceBraces cx.effect t els) || multi) = true := by
  intro h
  rcases hp.braces with ⟨hb, hi⟩ | hb
  · rw [hb, Option.getD_none, hp.effect]
    cases hf : forceBraces p.effect t els with
    | true => rfl
    | false =>
      obtain ⟨h1, h2, h3⟩ := hc hf
      unfold criteria at h
      rw [h1, hi, h2, h3] at h
      cases h
  · rw [hb]; rfl

theorem onNewLine_eq (ts : List Token) : onNewLine ts = leadingNewline ts := by
  cases ts <;> rfl

mutual
theorem rew_becomes (o : Opts) : ∀ (e e' : Expr) (cx : Cx) (p : Place), At cx p → Rew o cx e e' →
    Becomes o p e e'
  | .atom .., e', cx, p, hp, h => by rw [Rew] at h; rw [Becomes]; exact h
  | .str .., e', cx, p, hp, h => by rw [Rew] at h; rw [Becomes]; exact h
  | .paren a l e r, e', cx, p, hp, h => by
    rw [Rew] at h; rw [Becomes]
    refine orStays h ?_
    rintro ⟨x, hx, he⟩
    exact ⟨x, rew_becomes o e x _ _ (At.body cx) hx, he⟩
  | .braced a l es r, e', cx, p, hp, h => by
    rw [Rew] at h; rw [Becomes]
    refine orStays h ?_
    rintro ⟨xs, hx, he⟩
    exact ⟨xs, rews_becomes o es xs _ _ hx, he⟩
  | .unary a op e, e', cx, p, hp, h => by
    rw [Rew] at h; rw [Becomes]
    refine orStays h ?_
    rintro ⟨x, hx, he⟩
    refine ⟨x, rew_becomes o e x _ _ ?_ hx, he⟩
    split
    · next hw => rw [hw]; exact At.body cx
    · next hw =>
      have : (op.kind == Kind.wat) = false := by simpa using hw
      rw [this]
      exact At.plain cx
  | .binary a x op y, e', cx, p, hp, h => by
    rw [Rew] at h; rw [Becomes]
    refine orStays h ?_
    rintro ⟨x', y', hx, hy, he⟩
    have heq : ((match op.kind with | .assign | .equal | .wat => true | _ => false) && cx.eq) =
        (p.assign && (op.kind == .equal || op.kind == .assign || op.kind == .wat)) := by
      rw [hp.eq]
      cases p.assign <;> cases op.kind <;> rfl
    have has : isAssignOp op.kind = assigns op.kind := by cases op.kind <;> rfl
    refine ⟨x', newOp o.style cx.eq op, y', rew_becomes o x x' _ _ ?_ hx,
      rew_becomes o y y' _ _ ?_ hy, ?_, he⟩
    · exact ⟨rfl, heq, .inl ⟨rfl, rfl⟩, (fun h => by cases h)⟩
    · refine ⟨rfl, heq, .inl ⟨rfl, rfl⟩, ?_⟩
      intro ht
      simp only at ht
      split at ht
      · next hd =>
        rw [has, Bool.and_eq_true] at hd
        show (assigns op.kind && a.asks o .table) = true
        rw [hd.1, hasDirective_asks hd.2]; rfl
      · cases ht
    · unfold Operator newOp
      rw [hp.eq]
      obtain ⟨k, lead, text, trail⟩ := op
      cases k <;> cases o.style <;> simp <;> cases p.assign <;> simp
  | .sel a k x op y, e', cx, p, hp, h => by
    rw [Rew] at h; rw [Becomes]
    refine orStays h ?_
    rintro ⟨x', y', hx, hy, he⟩
    exact ⟨x', y', rew_becomes o x x' _ _ (At.plain cx) hx, rew_becomes o y y' _ _ (At.plain cx) hy,
      he⟩
  | .call a k f aa l items r, e', cx, p, hp, h => by
    rw [Rew] at h; rw [Becomes]
    refine orStays h ?_
    rintro ⟨f', items', hf, hi, he⟩
    refine ⟨f', items', rew_becomes o f f' _ _ (At.plain cx) hf, ?_, he⟩
    rcases hi with hi | ⟨ht, hi⟩
    · exact .inl (rew_becomesItems o items items' _ _ (At.plain { inArg := true }) hi)
    · exact .inr ⟨isTable_asks hp ht, hi⟩
  | .func a kw pa l items r b, e', cx, p, hp, h => by
    rw [Rew] at h; rw [Becomes]
    refine orStays h ?_
    rintro ⟨items', b', multi, hi, hb, he⟩
    refine ⟨items', b', _, _, rew_becomesItems o items items' _ _ (At.plain cx) hi,
      rew_becomes o b b' _ _ (At.body cx) hb, ?_, body_new _ _ _ multi, he⟩
    intro hn
    rw [← onNewLine_eq, hn]; rfl
  | .ite a kw l c r t, e', cx, p, hp, h => by
    rw [Rew] at h; rw [Becomes]
    refine orStays h ?_
    rintro ⟨c', t', multi, hc, ht, he⟩
    refine ⟨c', t', _, _, rew_becomes o c c' _ _ (At.plain cx) hc,
      rew_becomes o t t' _ _ (At.body cx) ht, ?_, body_new _ _ _ multi, he⟩
    refine force_criteria hp t none multi _ _ ?_
    intro hf
    unfold forceBraces at hf
    simp only [Bool.or_eq_false_iff] at hf
    simp only [List.any_cons, List.any_nil, onNewLine_eq, Bool.or_false, Bool.or_eq_false_iff]
    exact ⟨hf.1.1.1.1, hf.1.1.1.2, hf.1.1.2, hf.1.2⟩
  | .itee a kw l c r t ea el e, e', cx, p, hp, h => by
    rw [Rew] at h; rw [Becomes]
    refine orStays h ?_
    rintro ⟨c', t', x, multi, hc, ht, hx, he⟩
    refine ⟨c', t', _, x, _, _, rew_becomes o c c' _ _ (At.plain cx) hc,
      rew_becomes o t t' _ _ (At.body cx) ht, rew_becomes o e x _ _ ?_ hx, ?_,
      body_new _ _ _ multi, ?_, he⟩
    · refine ⟨rfl, rfl, ?_, (fun h => by cases h)⟩
      show (if e.isIf = true then _ else _) = none ∧ e.isIf = false ∨ _
      cases hi : e.isIf with
      | false => exact .inl ⟨rfl, rfl⟩
      | true =>
        refine .inr ?_
        show some _ = some true
        have hf : forceBraces cx.effect t (some (el, e)) = true := by
          unfold forceBraces
          simp only [hi, Bool.or_true]
        rw [hf]
        rcases hp.braces with ⟨hb, -⟩ | hb <;> rw [hb] <;> rfl
    · refine force_criteria hp t (some (el, e)) multi _ _ ?_
      intro hf
      unfold forceBraces at hf
      simp only [Bool.or_eq_false_iff] at hf
      simp only [List.any_cons, List.any_nil, onNewLine_eq, Bool.or_false, Bool.or_eq_false_iff]
      exact ⟨hf.1.1.1.1, ⟨hf.1.1.1.2, hf.2.1.1.1, hf.2.1.1.2⟩, ⟨hf.1.1.2, hf.1.2⟩, hf.2.1.2, hf.2.2⟩
    · split
      · next hi => unfold newBody; simp [hi]
      · next hi =>
        have hi' : e.isIf = false := by simpa using hi
        rw [hi', Bool.or_false]
        exact body_new _ _ _ multi
  | .for_ a kw l v i s r b, e', cx, p, hp, h => by
    rw [Rew] at h; rw [Becomes]
    refine orStays h ?_
    rintro ⟨v', s', b', hv, hs, hb, he⟩
    exact ⟨v', s', b', _, rew_becomes o v v' _ _ (At.plain cx) hv,
      rew_becomes o s s' _ _ (At.plain cx) hs, rew_becomes o b b' _ _ (At.body cx) hb,
      body_loop _ _, he⟩
  | .while_ a kw l c r b, e', cx, p, hp, h => by
    rw [Rew] at h; rw [Becomes]
    refine orStays h ?_
    rintro ⟨c', b', hc, hb, he⟩
    exact ⟨c', b', _, rew_becomes o c c' _ _ (At.plain cx) hc,
      rew_becomes o b b' _ _ (At.body cx) hb, body_loop _ _, he⟩
  | .repeat_ a kw b, e', cx, p, hp, h => by
    rw [Rew] at h; rw [Becomes]
    refine orStays h ?_
    rintro ⟨b', hb, he⟩
    exact ⟨b', _, rew_becomes o b b' _ _ (At.body cx) hb, body_loop _ _, he⟩
theorem rews_becomes (o : Opts) : ∀ (es es' : Exprs) (cx : Cx) (top : Bool), Rews o cx top es es' →
    Becomess o top es es'
  | .nil, es', cx, top, h => by rw [Rews] at h; rw [Becomess]; exact h
  | .cons e es, es', cx, top, h => by
    rw [Rews] at h; rw [Becomess]
    obtain ⟨x, xs, hx, hxs, he⟩ := h
    refine ⟨x, xs, rew_becomes o e x _ _ ?_ hx, rews_becomes o es xs _ _ hxs, he⟩
    exact ⟨rfl, rfl, .inl ⟨rfl, rfl⟩, (fun h => by cases h)⟩
theorem rew_becomesItems (o : Opts) : ∀ (xs xs' : Items) (vcx : Cx) (dir : Bool), At vcx {} →
    RewItems o vcx dir xs xs' → BecomesItems o xs xs'
  | .nil, xs', vcx, dir, hp, h => by rw [RewItems] at h; rw [BecomesItems]; exact h
  | .last x, xs', vcx, dir, hp, h => by
    rw [RewItems] at h; rw [BecomesItems]
    obtain ⟨x', hx, he⟩ := h
    exact ⟨x', rew_becomesArg o x x' _ _ hp hx, he⟩
  | .cons x s xs, xs', vcx, dir, hp, h => by
    rw [RewItems] at h; rw [BecomesItems]
    obtain ⟨x', ys, hx, hy, he⟩ := h
    exact ⟨x', ys, rew_becomesArg o x x' _ _ hp hx, rew_becomesItems o xs ys _ _ hp hy, he⟩
theorem rew_becomesArg (o : Opts) : ∀ (x x' : Arg) (vcx : Cx) (dir : Bool), At vcx {} →
    RewArg o vcx dir x x' → BecomesArg o x x'
  | .hole a, x', vcx, dir, hp, h => by rw [RewArg] at h; rw [BecomesArg]; exact h
  | .val a e, x', vcx, dir, hp, h => by
    rw [RewArg] at h; rw [BecomesArg]
    rcases h with ⟨hd, he⟩ | ⟨e', h1, he⟩
    · exact .inl ⟨hasDirective_asks hd, he⟩
    · exact .inr ⟨e', rew_becomes o e e' _ _ hp h1, he⟩
  | .name a na n q, x', vcx, dir, hp, h => by
    rw [RewArg] at h; rw [BecomesArg]
    rcases h with ⟨hd, he⟩ | ⟨n', h1, he⟩
    · exact .inl ⟨hasDirective_asks hd, he⟩
    · exact .inr ⟨n', rew_becomes o n n' _ _ (At.plain _) h1, he⟩
  | .named a na n q e, x', vcx, dir, hp, h => by
    rw [RewArg] at h; rw [BecomesArg]
    rcases h with ⟨hd, he⟩ | ⟨n', e', h1, h2, he⟩
    · exact .inl ⟨hasDirective_asks hd, he⟩
    · exact .inr ⟨n', e', rew_becomes o n n' _ _ (At.plain _) h1, rew_becomes o e e' _ _ hp h2, he⟩
  | .pdef a n da q e, x', vcx, dir, hp, h => by
    rw [RewArg] at h; rw [BecomesArg]
    rcases h with ⟨hd, he⟩ | ⟨n', e', h1, h2, he⟩
    · exact .inl ⟨hasDirective_asks hd, he⟩
    · exact .inr ⟨n', e', rew_becomes o n n' _ _ (At.plain _) h1, rew_becomes o e e' _ _ hp h2, he⟩
end

end Verif.Format
