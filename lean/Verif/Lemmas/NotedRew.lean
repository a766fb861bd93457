import Verif.Lemmas.NotedGram

/-!
# Statements for comments stay what they are

The formatter keeps the statements that stand for comments (`Verif/Lemmas/NotedTree.lean`) between the
statements that they lead. Trees are considered without trivia.
-/

namespace Verif.Format
open Verif.Syntax

variable {o : Opts} {N : Nat} {w : Bool}

/-! ## Braces around braces around a name -/

/-- 0: stands for a comment, 1: a name, 2: something else. -/
def Expr.sort (N : Nat) : Expr → Nat
  | .atom _ .rIdentifier t => if N < t.text.length then 0 else 1
  | _ => 2

def Exprs.sorts (N : Nat) : Exprs → List Nat
  | .nil => []
  | .cons e es => e.sort N :: es.sorts N

/-- Also for the statements in braces. -/
def Expr.sort2 (N : Nat) : Expr → Nat × Option (List Nat)
  | .braced _ _ es _ => (2, some (es.sorts N))
  | e => (e.sort N, none)

def Exprs.sorts2 (N : Nat) : Exprs → List (Nat × Option (List Nat))
  | .nil => []
  | .cons e es => e.sort2 N :: es.sorts2 N

/-- Without the statements that stand for comments it would be braces around braces around a name. -/
def cupped (l : List (Nat × Option (List Nat))) : Prop :=
  ∃ a m, l.filter (fun p => p.1 != 0) = [(a, some m)] ∧ m.filter (fun k => k != 0) = [1] ∧
    (l.length ≠ 1 ∨ m.length ≠ 1)

/-! ## Trees with statements for comments -/

/-- A statement that stands for a comment. -/
def Expr.IsNote (o : Opts) (N : Nat) : Expr → Prop
  | .atom _ k t => k = .rIdentifier ∧ t.kind = .ident ∧ ∃ c, t.text = noteText N c ∧ idle o c
  | _ => False

mutual
/-- The tokens are short, except for statements that stand for comments, which are followed by other
statements; `w`: these are allowed. -/
def Expr.Aired (o : Opts) (N : Nat) (w : Bool) : Expr → Prop
  | .atom _ _ t => t.text.length ≤ N
  | .str _ p c l => p.text.length ≤ N ∧ (∀ t ∈ c, t.text.length ≤ N) ∧ l.text.length ≤ N
  | .paren _ l e r => l.text.length ≤ N ∧ e.Aired o N w ∧ r.text.length ≤ N
  | .braced _ l es r => l.text.length ≤ N ∧ ¬ cupped (es.sorts2 N) ∧ es.Aired o N w ∧ r.text.length ≤ N
  | .unary _ p e => p.text.length ≤ N ∧ e.Aired o N w
  | .binary _ x p y => x.Aired o N w ∧ p.text.length ≤ N ∧ y.Aired o N w
  | .sel _ _ x p y => x.Aired o N w ∧ p.text.length ≤ N ∧ y.Aired o N w
  | .call _ _ f _ l items r => f.Aired o N w ∧ l.text.length ≤ N ∧ items.Aired o N w ∧ r.text.length ≤ N
  | .func _ kw _ l items r b =>
    kw.text.length ≤ N ∧ l.text.length ≤ N ∧ items.Aired o N false ∧ r.text.length ≤ N ∧ b.Aired o N w
  | .ite _ kw l c r t =>
    kw.text.length ≤ N ∧ l.text.length ≤ N ∧ c.Aired o N w ∧ r.text.length ≤ N ∧ t.Aired o N w
  | .itee _ kw l c r t _ el e =>
    kw.text.length ≤ N ∧ l.text.length ≤ N ∧ c.Aired o N w ∧ r.text.length ≤ N ∧ t.Aired o N w ∧
      el.text.length ≤ N ∧ e.Aired o N w
  | .for_ _ kw l v i s r b =>
    kw.text.length ≤ N ∧ l.text.length ≤ N ∧ v.Aired o N w ∧ i.text.length ≤ N ∧ s.Aired o N w ∧
      r.text.length ≤ N ∧ b.Aired o N w
  | .while_ _ kw l c r b =>
    kw.text.length ≤ N ∧ l.text.length ≤ N ∧ c.Aired o N w ∧ r.text.length ≤ N ∧ b.Aired o N w
  | .repeat_ _ kw b => kw.text.length ≤ N ∧ b.Aired o N w
def Exprs.Aired (o : Opts) (N : Nat) (w : Bool) : Exprs → Prop
  | .nil => True
  | .cons e es => ((e.IsNote o N ∧ w = true ∧ es ≠ .nil) ∨ e.Aired o N w) ∧ es.Aired o N w
def Items.Aired (o : Opts) (N : Nat) (w : Bool) : Items → Prop
  | .nil => True
  | .last x => x.Aired o N w
  | .cons x s xs => x.Aired o N w ∧ s.text.length ≤ N ∧ xs.Aired o N w
def Arg.Aired (o : Opts) (N : Nat) (w : Bool) : Arg → Prop
  | .hole _ => True
  | .val _ e => e.Aired o N w
  | .name _ _ n p => n.Aired o N w ∧ p.text.length ≤ N
  | .named _ _ n p e => n.Aired o N w ∧ p.text.length ≤ N ∧ e.Aired o N w
  | .pdef _ n _ p e => n.Aired o N w ∧ p.text.length ≤ N ∧ e.Aired o N w
end

/-! ## What becomes of them -/

theorem becomes_sort {p : Place} {e e' : Expr} (h : Becomes o p e e') : e'.bare.sort N = e.bare.sort N := by
  cases e <;> rw [Becomes] at h
  case atom => rw [h]
  case str => rw [h]
  all_goals
    rcases h with ⟨-, rfl⟩ | h
    · rfl
  case paren => obtain ⟨x, -, rfl⟩ := h; rfl
  case braced => obtain ⟨x, -, rfl⟩ := h; rfl
  case unary => obtain ⟨x, -, rfl⟩ := h; rfl
  case binary => obtain ⟨_, _, _, -, -, -, rfl⟩ := h; rfl
  case sel => obtain ⟨_, _, -, -, rfl⟩ := h; rfl
  case call => obtain ⟨_, _, -, -, rfl⟩ := h; rfl
  case func => obtain ⟨_, _, _, _, -, -, -, -, rfl⟩ := h; rfl
  case ite => obtain ⟨_, _, _, _, -, -, -, -, rfl⟩ := h; rfl
  case itee => obtain ⟨_, _, _, _, _, _, -, -, -, -, -, -, rfl⟩ := h; rfl
  case for_ => obtain ⟨_, _, _, _, -, -, -, -, rfl⟩ := h; rfl
  case while_ => obtain ⟨_, _, _, -, -, -, rfl⟩ := h; rfl
  case repeat_ => obtain ⟨_, _, -, -, rfl⟩ := h; rfl

theorem becomes_sorts {top : Bool} : (es es' : Exprs) → Becomess o top es es' → es'.bare.sorts N = es.bare.sorts N
  | .nil, es', h => by rw [Becomess] at h; rw [h]
  | .cons e es, es', h => by
    rw [Becomess] at h
    obtain ⟨x, xs, h1, h2, rfl⟩ := h
    simp only [Exprs.bare, Exprs.sorts, becomes_sort h1, becomes_sorts es xs h2]

theorem becomes_sort2 {p : Place} {e e' : Expr} (h : Becomes o p e e') : e'.bare.sort2 N = e.bare.sort2 N := by
  cases e <;> rw [Becomes] at h
  case atom => rw [h]
  case str => rw [h]
  all_goals
    rcases h with ⟨-, rfl⟩ | h
    · rfl
  case paren => obtain ⟨x, -, rfl⟩ := h; rfl
  case braced =>
    obtain ⟨x, h, rfl⟩ := h
    simp only [Expr.bare, Expr.sort2, becomes_sorts _ _ h]
  case unary => obtain ⟨x, -, rfl⟩ := h; rfl
  case binary => obtain ⟨_, _, _, -, -, -, rfl⟩ := h; rfl
  case sel => obtain ⟨_, _, -, -, rfl⟩ := h; rfl
  case call => obtain ⟨_, _, -, -, rfl⟩ := h; rfl
  case func => obtain ⟨_, _, _, _, -, -, -, -, rfl⟩ := h; rfl
  case ite => obtain ⟨_, _, _, _, -, -, -, -, rfl⟩ := h; rfl
  case itee => obtain ⟨_, _, _, _, _, _, -, -, -, -, -, -, rfl⟩ := h; rfl
  case for_ => obtain ⟨_, _, _, _, -, -, -, -, rfl⟩ := h; rfl
  case while_ => obtain ⟨_, _, _, -, -, -, rfl⟩ := h; rfl
  case repeat_ => obtain ⟨_, _, -, -, rfl⟩ := h; rfl

theorem becomes_sorts2 {top : Bool} : (es es' : Exprs) → Becomess o top es es' → es'.bare.sorts2 N = es.bare.sorts2 N
  | .nil, es', h => by rw [Becomess] at h; rw [h]
  | .cons e es, es', h => by
    rw [Becomess] at h
    obtain ⟨x, xs, h1, h2, rfl⟩ := h
    simp only [Exprs.bare, Exprs.sorts2, becomes_sort2 h1, becomes_sorts2 es xs h2]

theorem becomes_isBraced {p : Place} {e e' : Expr} (h : Becomes o p e e') : e'.isBraced = e.isBraced := by
  cases e <;> rw [Becomes] at h
  case atom => rw [h]
  case str => rw [h]
  all_goals
    rcases h with ⟨-, rfl⟩ | h
    · rfl
  case paren => obtain ⟨x, -, rfl⟩ := h; rfl
  case braced => obtain ⟨x, -, rfl⟩ := h; rfl
  case unary => obtain ⟨x, -, rfl⟩ := h; rfl
  case binary => obtain ⟨_, _, _, -, -, -, rfl⟩ := h; rfl
  case sel => obtain ⟨_, _, -, -, rfl⟩ := h; rfl
  case call => obtain ⟨_, _, -, -, rfl⟩ := h; rfl
  case func => obtain ⟨_, _, _, _, -, -, -, -, rfl⟩ := h; rfl
  case ite => obtain ⟨_, _, _, _, -, -, -, -, rfl⟩ := h; rfl
  case itee => obtain ⟨_, _, _, _, _, _, -, -, -, -, -, -, rfl⟩ := h; rfl
  case for_ => obtain ⟨_, _, _, _, -, -, -, -, rfl⟩ := h; rfl
  case while_ => obtain ⟨_, _, _, -, -, -, rfl⟩ := h; rfl
  case repeat_ => obtain ⟨_, _, -, -, rfl⟩ := h; rfl

theorem unbraced_cup {e : Expr} (h : e.isBraced = false) : ¬ cupped ((Exprs.cons e .nil).bare.sorts2 N) := by
  rintro ⟨a, m, h1, -, -⟩
  cases e <;> simp only [Exprs.bare, Expr.bare, Exprs.sorts2, Expr.sort2, List.filter_cons, List.filter_nil] at h1
  case braced => cases h
  all_goals (split at h1 <;> simp at h1)

theorem body_aired (hN : 2 ≤ N) {p : Place} {br : Bool} {b b' b'' : Expr} (hB : Becomes o p b b') (h : Body br b b' b'')
    (ha : b'.bare.Aired o N w) : b''.bare.Aired o N w := by
  unfold Body at h
  split at h
  · rw [h]; exact ha
  · rename_i hn
    rw [h, inBraces, Expr.bare]
    refine ⟨?_, ?_, ⟨.inr ha, trivial⟩, ?_⟩
    · simp [bareTok, Tok.plain, outTok]; omega
    · refine unbraced_cup ?_
      rw [becomes_isBraced hB]
      simpa using fun h => hn (.inl h)
    · simp [bareTok, Tok.plain, outTok]; omega

theorem operator_aired (hN : 2 ≤ N) {p : Place} {op op' : Token} (h : Operator o p op op')
    (ha : (bareTok op).text.length ≤ N) : (bareTok op').text.length ≤ N := by
  unfold Operator at h
  split at h
  · rw [h]; simpa [bareTok, Tok.plain, outTok] using hN
  · split at h
    · rw [h]; simp [bareTok, Tok.plain, outTok]; omega
    · rw [h]; exact ha

mutual
theorem becomes_aired (hN : 2 ≤ N) : (e e' : Expr) → {w : Bool} → {p : Place} → Becomes o p e e' → e.bare.Aired o N w →
    e'.bare.Aired o N w
  | .atom a k t, e', w, p, h, ha => by rw [Becomes] at h; rw [h]; exact ha
  | .str a q c l, e', w, p, h, ha => by rw [Becomes] at h; rw [h]; exact ha
  | .paren a l e r, e', w, p, h, ha => by
    rw [Becomes] at h
    rcases h with ⟨-, rfl⟩ | h
    · exact ha
    obtain ⟨x, h, rfl⟩ := h
    exact ⟨ha.1, becomes_aired hN e x h ha.2.1, ha.2.2⟩
  | .braced a l es r, e', w, p, h, ha => by
    rw [Becomes] at h
    rcases h with ⟨-, rfl⟩ | h
    · exact ha
    obtain ⟨x, h, rfl⟩ := h
    exact ⟨ha.1, by rw [becomes_sorts2 _ _ h]; exact ha.2.1, becomess_aired hN es x h ha.2.2.1, ha.2.2.2⟩
  | .unary a q e, e', w, p, h, ha => by
    rw [Becomes] at h
    rcases h with ⟨-, rfl⟩ | h
    · exact ha
    obtain ⟨x, h, rfl⟩ := h
    exact ⟨ha.1, becomes_aired hN e x h ha.2⟩
  | .binary a x q y, e', w, p, h, ha => by
    rw [Becomes] at h
    rcases h with ⟨-, rfl⟩ | h
    · exact ha
    obtain ⟨x', q', y', h1, h2, h3, rfl⟩ := h
    exact ⟨becomes_aired hN x x' h1 ha.1, operator_aired hN h3 ha.2.1, becomes_aired hN y y' h2 ha.2.2⟩
  | .sel a k x q y, e', w, p, h, ha => by
    rw [Becomes] at h
    rcases h with ⟨-, rfl⟩ | h
    · exact ha
    obtain ⟨x', y', h1, h2, rfl⟩ := h
    exact ⟨becomes_aired hN x x' h1 ha.1, ha.2.1, becomes_aired hN y y' h2 ha.2.2⟩
  | .call a k f aa l items r, e', w, p, h, ha => by
    rw [Becomes] at h
    rcases h with ⟨-, rfl⟩ | h
    · exact ha
    obtain ⟨f', items', h1, h2, rfl⟩ := h
    refine ⟨becomes_aired hN f f' h1 ha.1, ha.2.1, ?_, ha.2.2.2⟩
    rcases h2 with h2 | ⟨-, rfl⟩
    · exact becomesItems_aired hN items items' h2 ha.2.2.1
    · exact ha.2.2.1
  | .func a kw pa l items r b, e', w, p, h, ha => by
    rw [Becomes] at h
    rcases h with ⟨-, rfl⟩ | h
    · exact ha
    obtain ⟨items', b', b'', br, h1, h2, -, h3, rfl⟩ := h
    exact ⟨ha.1, ha.2.1, becomesItems_aired hN items items' h1 ha.2.2.1, ha.2.2.2.1,
      body_aired hN h2 h3 (becomes_aired hN b b' h2 ha.2.2.2.2)⟩
  | .ite a kw l c r t, e', w, p, h, ha => by
    rw [Becomes] at h
    rcases h with ⟨-, rfl⟩ | h
    · exact ha
    obtain ⟨c', t', t'', br, h1, h2, -, h3, rfl⟩ := h
    exact ⟨ha.1, ha.2.1, becomes_aired hN c c' h1 ha.2.2.1, ha.2.2.2.1,
      body_aired hN h2 h3 (becomes_aired hN t t' h2 ha.2.2.2.2)⟩
  | .itee a kw l c r t ea el e, e', w, p, h, ha => by
    rw [Becomes] at h
    rcases h with ⟨-, rfl⟩ | h
    · exact ha
    obtain ⟨c', t', t'', x, x'', br, h1, h2, h4, -, h3, h5, rfl⟩ := h
    refine ⟨ha.1, ha.2.1, becomes_aired hN c c' h1 ha.2.2.1, ha.2.2.2.1,
      body_aired hN h2 h3 (becomes_aired hN t t' h2 ha.2.2.2.2.1), ha.2.2.2.2.2.1, ?_⟩
    have h6 := becomes_aired hN e x h4 ha.2.2.2.2.2.2
    split at h5
    · rw [h5]; exact h6
    · exact body_aired hN h4 h5 h6
  | .for_ a kw l v i s r b, e', w, p, h, ha => by
    rw [Becomes] at h
    rcases h with ⟨-, rfl⟩ | h
    · exact ha
    obtain ⟨v', s', b', b'', h1, h2, h3, h4, rfl⟩ := h
    exact ⟨ha.1, ha.2.1, becomes_aired hN v v' h1 ha.2.2.1, ha.2.2.2.1, becomes_aired hN s s' h2 ha.2.2.2.2.1,
      ha.2.2.2.2.2.1, body_aired hN h3 h4 (becomes_aired hN b b' h3 ha.2.2.2.2.2.2)⟩
  | .while_ a kw l c r b, e', w, p, h, ha => by
    rw [Becomes] at h
    rcases h with ⟨-, rfl⟩ | h
    · exact ha
    obtain ⟨c', b', b'', h1, h3, h4, rfl⟩ := h
    exact ⟨ha.1, ha.2.1, becomes_aired hN c c' h1 ha.2.2.1, ha.2.2.2.1,
      body_aired hN h3 h4 (becomes_aired hN b b' h3 ha.2.2.2.2)⟩
  | .repeat_ a kw b, e', w, p, h, ha => by
    rw [Becomes] at h
    rcases h with ⟨-, rfl⟩ | h
    · exact ha
    obtain ⟨b', b'', h3, h4, rfl⟩ := h
    exact ⟨ha.1, body_aired hN h3 h4 (becomes_aired hN b b' h3 ha.2)⟩
theorem becomess_aired (hN : 2 ≤ N) : (es es' : Exprs) → {w top : Bool} → Becomess o top es es' → es.bare.Aired o N w →
    es'.bare.Aired o N w
  | .nil, es', w, top, h, ha => by rw [Becomess] at h; rw [h]; exact ha
  | .cons e es, es', w, top, h, ha => by
    rw [Becomess] at h
    obtain ⟨x, xs, h1, h2, rfl⟩ := h
    refine ⟨?_, becomess_aired hN es xs h2 ha.2⟩
    rcases ha.1 with ⟨h3, h4, h5⟩ | h3
    · left
      refine ⟨?_, h4, ?_⟩
      · cases e <;> simp only [Expr.bare, Expr.IsNote] at h3
        rw [Becomes] at h1
        rw [h1]
        exact h3
      · intro h6
        apply h5
        cases xs with
        | nil =>
          cases es with
          | nil => rfl
          | cons e es => rw [Becomess] at h2; obtain ⟨_, _, _, _, h⟩ := h2; cases h
        | cons _ _ => cases h6
    · exact .inr (becomes_aired hN e x h1 h3)
theorem becomesItems_aired (hN : 2 ≤ N) : (xs xs' : Items) → {w : Bool} → BecomesItems o xs xs' → xs.bare.Aired o N w →
    xs'.bare.Aired o N w
  | .nil, xs', w, h, ha => by rw [BecomesItems] at h; rw [h]; exact ha
  | .last x, xs', w, h, ha => by
    rw [BecomesItems] at h
    obtain ⟨x', h, rfl⟩ := h
    exact becomesArg_aired hN x x' h ha
  | .cons x s xs, xs', w, h, ha => by
    rw [BecomesItems] at h
    obtain ⟨x', ys, h1, h2, rfl⟩ := h
    exact ⟨becomesArg_aired hN x x' h1 ha.1, ha.2.1, becomesItems_aired hN xs ys h2 ha.2.2⟩
theorem becomesArg_aired (hN : 2 ≤ N) : (x x' : Arg) → {w : Bool} → BecomesArg o x x' → x.bare.Aired o N w →
    x'.bare.Aired o N w
  | .hole a, x', w, h, ha => by rw [BecomesArg] at h; rw [h]; exact ha
  | .val a e, x', w, h, ha => by
    rw [BecomesArg] at h
    rcases h with ⟨-, rfl⟩ | ⟨e', h, rfl⟩
    · exact ha
    · exact becomes_aired hN e e' h ha
  | .name a na n q, x', w, h, ha => by
    rw [BecomesArg] at h
    rcases h with ⟨-, rfl⟩ | ⟨e', h, rfl⟩
    · exact ha
    · exact ⟨becomes_aired hN n e' h ha.1, ha.2⟩
  | .named a na n q e, x', w, h, ha => by
    rw [BecomesArg] at h
    rcases h with ⟨-, rfl⟩ | ⟨n', e', h, h2, rfl⟩
    · exact ha
    · exact ⟨becomes_aired hN n n' h ha.1, ha.2.1, becomes_aired hN e e' h2 ha.2.2⟩
  | .pdef a n da q e, x', w, h, ha => by
    rw [BecomesArg] at h
    rcases h with ⟨-, rfl⟩ | ⟨n', e', h, h2, rfl⟩
    · exact ha
    · exact ⟨becomes_aired hN n n' h ha.1, ha.2.1, becomes_aired hN e e' h2 ha.2.2⟩
end

/-! ## The trees that are made for comments -/

theorem short_len {t : Token} (h : Short N t) : (bareTok t).text.length ≤ N := by
  simpa [Short, Tok.isNote, bareTok, Tok.plain] using h

theorem Mild.short {h : Token → Token} (hh : Mild h) {t : Token} (ht : Short N t) : (bareTok (h t)).text.length ≤ N := by
  have := short_len ht
  unfold bareTok at this ⊢
  rw [hh.out]
  exact this

theorem voiced_sort {h : Token → Token} (hh : Mild h) {e : Expr} (hn : e.Noted o N) : (e.voiced N h).bare.sort N ≠ 0 := by
  cases e with
  | atom a k t =>
    have h1 := hh.short hn.2.1
    cases k
    case rIdentifier =>
      simp only [Expr.voiced, Expr.bare, Expr.sort]
      rw [if_neg (by omega)]
      decide
    all_goals (simp only [Expr.voiced, Expr.bare, Expr.sort]; decide)
  | _ => simp only [Expr.voiced, Expr.bare, Expr.sort]; decide

theorem note_sort (n : Nat) (c : List Byte) : (noteExpr N n c).bare.sort N = 0 := by
  simp only [noteExpr, Expr.bare, Expr.sort, bareTok, outTok, noteToken, Tok.plain, noteText]
  rw [if_pos]
  simp
  omega

theorem sort2_fst (e : Expr) : (e.sort2 N).1 = e.sort N := by
  cases e <;> rfl

theorem filter_notes {k : Nat → Exprs} {l : List Nat} : ∀ (cs : List Comment) (n : Nat),
    (∀ n, ((k n).bare.sorts N).filter (fun k => k != 0) = l) →
    ((notes N n cs k).bare.sorts N).filter (fun k => k != 0) = l
  | [], n, h => h n
  | c :: cs, n, h => by
    simp only [notes, Exprs.bare, Exprs.sorts, note_sort]
    rw [List.filter_cons, if_neg (by decide)]
    exact filter_notes cs _ h

theorem filter_notes2 {k : Nat → Exprs} {l : List (Nat × Option (List Nat))} : ∀ (cs : List Comment) (n : Nat),
    (∀ n, ((k n).bare.sorts2 N).filter (fun p => p.1 != 0) = l) →
    ((notes N n cs k).bare.sorts2 N).filter (fun p => p.1 != 0) = l
  | [], n, h => h n
  | c :: cs, n, h => by
    simp only [notes, Exprs.bare, Exprs.sorts2]
    rw [List.filter_cons, if_neg (by rw [sort2_fst, note_sort]; decide)]
    exact filter_notes2 cs _ h

theorem voiced_bare (e : Expr) : ∀ n n', (e.voiced N (fresh n)).bare = (e.voiced N (fresh n')).bare := by
  intro n n'
  exact go e
where
  go : (e : Expr) → ∀ {n n' : Nat}, (e.voiced N (fresh n)).bare = (e.voiced N (fresh n')).bare
  | .atom .., _, _ => rfl
  | .str .., _, _ => rfl
  | .paren .., _, _ => rfl
  | .braced .., _, _ => rfl
  | .unary .., _, _ => rfl
  | .binary a x p y, n, n' => by simp only [Expr.voiced, Expr.bare, go x (n := n) (n' := n')]
  | .sel a k x p y, n, n' => by simp only [Expr.voiced, Expr.bare, go x (n := n) (n' := n')]
  | .call a k f aa l items r, n, n' => by simp only [Expr.voiced, Expr.bare, go f (n := n) (n' := n')]
  | .func .., _, _ => rfl
  | .ite .., _, _ => rfl
  | .itee .., _, _ => rfl
  | .for_ .., _, _ => rfl
  | .while_ .., _, _ => rfl
  | .repeat_ .., _, _ => rfl

theorem filter_voiced {e : Expr} {es : Exprs} (hn : e.Noted o N) :
    (((Exprs.cons e es).voiced N).bare.sorts N).filter (fun k => k != 0) =
      (e.voiced N (fresh 0)).bare.sort N :: ((es.voiced N).bare.sorts N).filter (fun k => k != 0) := by
  rw [Exprs.voiced]
  refine filter_notes _ _ fun n' => ?_
  simp only [Exprs.bare, Exprs.sorts]
  rw [List.filter_cons, if_pos (by simpa using voiced_sort (mild_fresh n') hn), voiced_bare e n' 0]

theorem filter_voiced2 {e : Expr} {es : Exprs} (hn : e.Noted o N) :
    (((Exprs.cons e es).voiced N).bare.sorts2 N).filter (fun p => p.1 != 0) =
      (e.voiced N (fresh 0)).bare.sort2 N :: ((es.voiced N).bare.sorts2 N).filter (fun p => p.1 != 0) := by
  rw [Exprs.voiced]
  refine filter_notes2 _ _ fun n' => ?_
  simp only [Exprs.bare, Exprs.sorts2]
  rw [List.filter_cons, if_pos (by rw [sort2_fst]; simpa using voiced_sort (mild_fresh n') hn), voiced_bare e n' 0]

theorem voiced_cup {es : Exprs} (hn : es.Noted o N) (hc : (curlyCurly true es).isSome = true → es.comments = []) :
    ¬ cupped ((es.voiced N).bare.sorts2 N) := by
  rintro ⟨a, m, h1, h2, h3⟩
  cases es with
  | nil => cases h1
  | cons e es =>
    rw [filter_voiced2 hn.1] at h1
    injection h1 with h4 h5
    cases es with
    | cons e' es => rw [filter_voiced2 hn.2.1] at h5; cases h5
    | nil =>
      cases e with
      | braced ia il fs ir =>
        simp only [Expr.voiced, Expr.bare, Expr.sort2, Prod.mk.injEq, Option.some.injEq] at h4
        obtain ⟨-, rfl⟩ := h4
        have hf := hn.1.2.2.2.1
        cases fs with
        | nil => cases h2
        | cons f fs =>
          rw [filter_voiced hf.1] at h2
          injection h2 with h6 h7
          cases fs with
          | cons f' fs => rw [filter_voiced hf.2.1] at h7; cases h7
          | nil =>
            cases f
            case atom ea k t =>
              cases k
              case rIdentifier =>
                have h8 := hc rfl
                simp only [Exprs.comments, Expr.comments, List.append_nil] at h8
                obtain ⟨rfl, h9⟩ := ann_of_free h8
                have h10 := Ann.eq_nil h9
                subst h10
                simp [Exprs.voiced, Expr.ann, notes, Exprs.bare, Exprs.sorts2, Exprs.sorts, Expr.voiced] at h3
              all_goals (simp [Expr.voiced, Expr.bare, Expr.sort] at h6)
            all_goals (simp [Expr.voiced, Expr.bare, Expr.sort] at h6)
      | atom ea k t => cases k <;> simp [Expr.voiced, Expr.bare, Expr.sort2] at h4
      | _ => simp [Expr.voiced, Expr.bare, Expr.sort2] at h4

theorem notes_aired {k : Nat → Exprs} (hk : ∀ n, (k n).bare.Aired o N true) (hk' : ∀ n, k n ≠ .nil) :
    ∀ (cs : List Comment) (n : Nat), (∀ c ∈ cs, idle o c.text) →
      (notes N n cs k).bare.Aired o N true ∧ notes N n cs k ≠ .nil
  | [], n, _ => ⟨hk n, hk' n⟩
  | c :: cs, n, h => by
    obtain ⟨h1, h2⟩ := notes_aired hk hk' cs c.gap (fun c hc => h c (by simp [hc]))
    refine ⟨⟨.inl ⟨⟨rfl, rfl, c.text, rfl, h c (by simp)⟩, rfl, ?_⟩, h1⟩, by simp [notes]⟩
    intro h3
    apply h2
    cases h4 : notes N c.gap cs k with
    | nil => rfl
    | cons _ _ => rw [h4] at h3; cases h3

mutual
theorem voiced_aired : (e : Expr) → e.Noted o N → ∀ {w : Bool} {h : Token → Token}, Mild h → (w = false → e.comments = []) →
    (e.voiced N h).bare.Aired o N w
  | .atom a k t, hn, w, h, hh, hw => hh.short hn.2.1
  | .str a p c l, hn, w, h, hh, hw => by
    refine ⟨hh.short hn.2.1, ?_, mild_hush.short hn.2.2.2⟩
    intro t ht
    cases c with
    | none => simp at ht
    | some c => simp at ht; subst ht; exact mild_hush.short (hn.2.2.1 c rfl)
  | .paren a l e r, hn, w, h, hh, hw => by
    obtain ⟨-, h0, -, -, h1, h2⟩ := hn
    exact ⟨hh.short h0, voiced_aired e h1 mild_hush (fun h => by have := hw h; simp_all [Expr.comments]), mild_hush.short h2⟩
  | .braced a l es r, hn, w, h, hh, hw => by
    obtain ⟨-, h0, h3, h1, h2⟩ := hn
    exact ⟨hh.short h0, voiced_cup h1 h3, voiced_aireds es h1 (fun h => by have := hw h; simp_all [Expr.comments]),
      mild_hush.short h2⟩
  | .unary a p e, hn, w, h, hh, hw => by
    obtain ⟨-, h0, -, h1⟩ := hn
    exact ⟨hh.short h0, voiced_aired e h1 mild_hush (fun h => by have := hw h; simp_all [Expr.comments])⟩
  | .binary a x p y, hn, w, h, hh, hw => by
    obtain ⟨-, -, h1, h0, -, h2⟩ := hn
    exact ⟨voiced_aired x h1 hh (fun h => by have := hw h; simp_all [Expr.comments]), mild_hush.short h0,
      voiced_aired y h2 mild_hush (fun h => by have := hw h; simp_all [Expr.comments])⟩
  | .sel a k x p y, hn, w, h, hh, hw => by
    obtain ⟨-, -, h1, h0, -, h2, h3⟩ := hn
    exact ⟨voiced_aired x h1 hh (fun h => by have := hw h; simp_all [Expr.comments]), mild_hush.short h0,
      voiced_aired y h2 mild_hush (fun h => by have := hw h; simp_all [Expr.comments])⟩
  | .call a k f aa l items r, hn, w, h, hh, hw => by
    obtain ⟨-, -, -, -, h1, h3, h2, h4, -⟩ := hn
    exact ⟨voiced_aired f h1 hh (fun h => by have := hw h; simp_all [Expr.comments]), mild_hush.short h3,
      voiced_airedItems items h2 (fun h => by have := hw h; simp_all [Expr.comments]), mild_hush.short h4⟩
  | .func a kw pa l items r b, hn, w, h, hh, hw => by
    obtain ⟨-, -, h0, h3, h5, h1, h4, -, h2⟩ := hn
    exact ⟨hh.short h0, mild_hush.short h3, voiced_airedItems items h1 (fun _ => h5), mild_hush.short h4,
      voiced_aired b h2 mild_hush (fun h => by have := hw h; simp_all [Expr.comments])⟩
  | .ite a kw l c r t, hn, w, h, hh, hw => by
    obtain ⟨-, h0, h3, -, h1, h4, -, h2⟩ := hn
    exact ⟨hh.short h0, mild_hush.short h3, voiced_aired c h1 mild_hush (fun h => by have := hw h; simp_all [Expr.comments]),
      mild_hush.short h4, voiced_aired t h2 mild_hush (fun h => by have := hw h; simp_all [Expr.comments])⟩
  | .itee a kw l c r t ea el e, hn, w, h, hh, hw => by
    obtain ⟨-, -, h0, h3, -, h1, h4, -, h2, h5, -, -, h6⟩ := hn
    exact ⟨hh.short h0, mild_hush.short h3, voiced_aired c h1 mild_hush (fun h => by have := hw h; simp_all [Expr.comments]),
      mild_hush.short h4, voiced_aired t h2 mild_hush (fun h => by have := hw h; simp_all [Expr.comments]),
      mild_hush.short h5, voiced_aired e h6 mild_hush (fun h => by have := hw h; simp_all [Expr.comments])⟩
  | .for_ a kw l v i s r b, hn, w, h, hh, hw => by
    obtain ⟨-, h0, h4, -, h1, h5, -, h2, h6, -, h3⟩ := hn
    exact ⟨hh.short h0, mild_hush.short h4, voiced_aired v h1 mild_hush (fun h => by have := hw h; simp_all [Expr.comments]),
      mild_hush.short h5, voiced_aired s h2 mild_hush (fun h => by have := hw h; simp_all [Expr.comments]),
      mild_hush.short h6, voiced_aired b h3 mild_hush (fun h => by have := hw h; simp_all [Expr.comments])⟩
  | .while_ a kw l c r b, hn, w, h, hh, hw => by
    obtain ⟨-, h0, h4, -, h1, h5, -, h2⟩ := hn
    exact ⟨hh.short h0, mild_hush.short h4, voiced_aired c h1 mild_hush (fun h => by have := hw h; simp_all [Expr.comments]),
      mild_hush.short h5, voiced_aired b h2 mild_hush (fun h => by have := hw h; simp_all [Expr.comments])⟩
  | .repeat_ a kw b, hn, w, h, hh, hw => by
    obtain ⟨-, h0, -, h1⟩ := hn
    exact ⟨hh.short h0, voiced_aired b h1 mild_hush (fun h => by have := hw h; simp_all [Expr.comments])⟩
theorem voiced_aireds : (es : Exprs) → es.Noted o N → ∀ {w : Bool}, (w = false → es.comments = []) →
    (es.voiced N).bare.Aired o N w
  | .nil, _, _, _ => trivial
  | .cons e es, hn, w, hw => by
    have h1 : ∀ n, (e.voiced N (fresh n)).bare.Aired o N w := fun n => voiced_aired e hn.1 (mild_fresh n)
      (fun h => by have := hw h; simp_all [Exprs.comments])
    have h2 := voiced_aireds es hn.2 (w := w) (fun h => by have := hw h; simp_all [Exprs.comments])
    rw [Exprs.voiced]
    cases w with
    | true =>
      exact (notes_aired (k := fun n => .cons (e.voiced N (fresh n)) (es.voiced N)) (fun n => ⟨.inr (h1 n), h2⟩) (by nofun) _ _ hn.1.led.2.2).1
    | false =>
      have h3 : e.ann = {} := by
        have := hw rfl
        cases e <;> simp only [Exprs.comments, Expr.comments, List.append_eq_nil_iff] at this <;>
          exact Ann.eq_nil (by simp_all [Expr.ann])
      rw [h3]
      exact ⟨.inr (h1 _), h2⟩
theorem voiced_airedItems : (xs : Items) → xs.Noted o N → ∀ {w : Bool}, (w = false → xs.comments = []) →
    (xs.voiced N).bare.Aired o N w
  | .nil, _, _, _ => trivial
  | .last x, hn, w, hw => voiced_airedArg x hn (fun h => by have := hw h; simp_all [Items.comments])
  | .cons x s xs, hn, w, hw => ⟨voiced_airedArg x hn.1 (fun h => by have := hw h; simp_all [Items.comments]),
      mild_hush.short hn.2.1, voiced_airedItems xs hn.2.2 (fun h => by have := hw h; simp_all [Items.comments])⟩
theorem voiced_airedArg : (x : Arg) → x.Noted o N → ∀ {w : Bool}, (w = false → x.comments = []) →
    (x.voiced N).bare.Aired o N w
  | .hole a, _, _, _ => trivial
  | .val a e, hn, w, hw => voiced_aired e hn.2.2.2 mild_hush (fun h => by have := hw h; simp_all [Arg.comments])
  | .name a na n p, hn, w, hw => by
    obtain ⟨-, -, -, h1, h2⟩ := hn
    exact ⟨voiced_aired n h1 mild_hush (fun h => by have := hw h; simp_all [Arg.comments]), mild_hush.short h2⟩
  | .named a na n p e, hn, w, hw => by
    obtain ⟨-, -, -, h1, h3, -, h2⟩ := hn
    exact ⟨voiced_aired n h1 mild_hush (fun h => by have := hw h; simp_all [Arg.comments]), mild_hush.short h3,
      voiced_aired e h2 mild_hush (fun h => by have := hw h; simp_all [Arg.comments])⟩
  | .pdef a n da p e, hn, w, hw => by
    obtain ⟨-, -, h1, -, h3, -, h2⟩ := hn
    exact ⟨voiced_aired n h1 mild_hush (fun h => by have := hw h; simp_all [Arg.comments]), mild_hush.short h3,
      voiced_aired e h2 mild_hush (fun h => by have := hw h; simp_all [Arg.comments])⟩
end

end Verif.Format
