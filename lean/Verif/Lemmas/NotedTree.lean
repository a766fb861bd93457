import Verif.Lemmas.NotedBase

/-!
# Programs whose comments lead statements
-/

namespace Verif.Format
open Verif.Syntax

variable {o : Opts} {N : Nat}

/-! ## Trivia -/

/-- A line break. -/
def nlPiece : Piece := ⟨.newline, [10]⟩

/-- The token after `n` line breaks. -/
def fresh (n : Nat) (t : Token) : Token := { t with leading := List.replicate n nlPiece, trailing := [] }

/-- The token without comments around it. -/
def hush (t : Token) : Token := fresh (linesBeforeToken t) t

theorem takeWhile_whole {p : Piece → Bool} : ∀ {l : List Piece}, (∀ a ∈ l, p a = true) → l.takeWhile p = l
  | [], _ => rfl
  | a :: l, h => by
    rw [List.takeWhile_cons, if_pos (h a (by simp)), takeWhile_whole (fun b hb => h b (by simp [hb]))]

theorem takeWhile_nls (n : Nat) :
    (List.replicate n nlPiece).takeWhile (fun p => p.kind != .comment) = List.replicate n nlPiece := by
  apply takeWhile_whole
  intro p hp
  rw [(List.mem_replicate.1 hp).2]
  rfl

theorem filter_nls (n : Nat) :
    (List.replicate n nlPiece).filter (fun p => p.kind == .newline) = List.replicate n nlPiece := by
  rw [List.filter_eq_self]
  intro p hp
  rw [(List.mem_replicate.1 hp).2]
  rfl

theorem fresh_lines (n : Nat) (t : Token) : linesBeforeToken (fresh n t) = n := by
  simp only [linesBeforeToken, fresh, takeWhile_nls, filter_nls, List.length_replicate]

theorem nls_comment (n : Nat) : hasComment (List.replicate n nlPiece) = false := by
  simp only [hasComment, List.any_eq_false]
  intro p hp
  rw [(List.mem_replicate.1 hp).2]
  decide

theorem fresh_bland (n : Nat) (t : Token) : Bland (fresh n t) := ⟨nls_comment n, rfl⟩

theorem hush_bland (t : Token) : Bland (hush t) := fresh_bland _ t

theorem hush_lines (t : Token) : linesBeforeToken (hush t) = linesBeforeToken t := fresh_lines _ t

theorem hush_newline {t : Token} (h : hasComment t.leading = false) :
    leadingNewlineToken (hush t) = leadingNewlineToken t := by
  have h1 : t.leading.takeWhile (fun p => p.kind != .comment) = t.leading := by
    apply takeWhile_whole
    intro p hp
    have := List.any_eq_false.1 h p hp
    simpa using this
  simp only [hush, fresh, leadingNewlineToken, linesBeforeToken, h1]
  rw [Bool.eq_iff_iff, List.any_eq_true, List.any_eq_true]
  constructor
  · rintro ⟨p, hp, -⟩
    have hn := (List.mem_replicate.1 hp).1
    obtain ⟨r, hr⟩ := List.exists_mem_of_length_pos (Nat.pos_of_ne_zero hn)
    exact ⟨r, (List.mem_filter.1 hr).1, (List.mem_filter.1 hr).2⟩
  · rintro ⟨p, hp, hk⟩
    refine ⟨nlPiece, List.mem_replicate.2 ⟨?_, rfl⟩, rfl⟩
    intro h0
    have := List.length_eq_zero_iff.1 h0
    have h3 : p ∈ t.leading.filter (fun p => p.kind == .newline) := List.mem_filter.2 ⟨hp, hk⟩
    rw [this] at h3
    cases h3

/-- It only changes the trivia. -/
def Mild (h : Token → Token) : Prop := ∀ t, ∃ n, h t = fresh n t

theorem mild_fresh (n : Nat) : Mild (fresh n) := fun _ => ⟨n, rfl⟩
theorem mild_hush : Mild hush := fun _ => ⟨_, rfl⟩

variable {h : Token → Token}

theorem Mild.out (hh : Mild h) (t : Token) : outTok (h t) = outTok t := by
  obtain ⟨n, hn⟩ := hh t
  rw [hn]; rfl
theorem Mild.kind (hh : Mild h) (t : Token) : (h t).kind = t.kind := by
  obtain ⟨n, hn⟩ := hh t
  rw [hn]; rfl
theorem Mild.text (hh : Mild h) (t : Token) : (h t).text = t.text := by
  obtain ⟨n, hn⟩ := hh t
  rw [hn]; rfl
theorem Mild.bland (hh : Mild h) (t : Token) : Bland (h t) := by
  obtain ⟨n, hn⟩ := hh t
  rw [hn]; exact fresh_bland n t
theorem Mild.doc (hh : Mild h) (t : Token) : tokDoc (h t) = tokDoc t := by
  rw [tokDoc, hh.out, tokDoc]

/-! ## The program with statements for comments -/

/-- The token that stands for a comment after `n` line breaks. -/
def noteToken (N n : Nat) (c : List Byte) : Token := ⟨.ident, List.replicate n nlPiece, noteText N c, []⟩

/-- The statement that stands for it. -/
def noteExpr (N n : Nat) (c : List Byte) : Expr := .atom {} .rIdentifier (noteToken N n c)

/-- The line breaks printed after a comment that leads a statement. -/
def Comment.gap (c : Comment) : Nat := if c.after ≤ 1 then 1 else 2

/-- Statements for comments, after `n` line breaks; `k`: what follows. -/
def notes (N : Nat) : Nat → List Comment → (Nat → Exprs) → Exprs
  | n, [], k => k n
  | n, c :: cs, k => .cons (noteExpr N n c.text) (notes N c.gap cs k)

mutual
/-- The expression with statements for the comments that lead statements; `h`: for its first token. -/
def Expr.voiced (N : Nat) (h : Token → Token) : Expr → Expr
  | .atom _ k t => .atom {} k (h t)
  | .str _ p c l => .str {} (h p) (c.map hush) (hush l)
  | .paren _ l e r => .paren {} (h l) (e.voiced N hush) (hush r)
  | .braced _ l es r => .braced {} (h l) (es.voiced N) (hush r)
  | .unary _ p e => .unary {} (h p) (e.voiced N hush)
  | .binary _ x p y => .binary {} (x.voiced N h) (hush p) (y.voiced N hush)
  | .sel _ k x p y => .sel {} k (x.voiced N h) (hush p) (y.voiced N hush)
  | .call _ k f _ l items r => .call {} k (f.voiced N h) {} (hush l) (items.voiced N) (hush r)
  | .func _ kw _ l items r b => .func {} (h kw) {} (hush l) (items.voiced N) (hush r) (b.voiced N hush)
  | .ite _ kw l c r t => .ite {} (h kw) (hush l) (c.voiced N hush) (hush r) (t.voiced N hush)
  | .itee _ kw l c r t _ el e =>
    .itee {} (h kw) (hush l) (c.voiced N hush) (hush r) (t.voiced N hush) {} (hush el) (e.voiced N hush)
  | .for_ _ kw l v i s r b =>
    .for_ {} (h kw) (hush l) (v.voiced N hush) (hush i) (s.voiced N hush) (hush r) (b.voiced N hush)
  | .while_ _ kw l c r b => .while_ {} (h kw) (hush l) (c.voiced N hush) (hush r) (b.voiced N hush)
  | .repeat_ _ kw b => .repeat_ {} (h kw) (b.voiced N hush)
def Exprs.voiced (N : Nat) : Exprs → Exprs
  | .nil => .nil
  | .cons e es =>
    notes N (linesBefore e.tokens) e.ann.leading (fun n => .cons (e.voiced N (fresh n)) (es.voiced N))
def Items.voiced (N : Nat) : Items → Items
  | .nil => .nil
  | .last x => .last (x.voiced N)
  | .cons x s xs => .cons (x.voiced N) (hush s) (xs.voiced N)
def Arg.voiced (N : Nat) : Arg → Arg
  | .hole _ => .hole {}
  | .val _ e => .val {} (e.voiced N hush)
  | .name _ _ n p => .name {} {} (n.voiced N hush) (hush p)
  | .named _ _ n p e => .named {} {} (n.voiced N hush) (hush p) (e.voiced N hush)
  | .pdef _ n _ p e => .pdef {} (n.voiced N hush) {} (hush p) (e.voiced N hush)
end

/-! ## The programs -/

/-- A comment that asks for nothing. -/
def idle (o : Opts) (c : List Byte) : Prop := o.directive c = none ∧ o.generated c = false

/-- The node has comments before it only. -/
def Ann.Led (o : Opts) (a : Ann) : Prop := a.dangling = [] ∧ a.trailing = [] ∧ ∀ c ∈ a.leading, idle o c.text

/-- No comments before the first token. -/
def quiet : List Token → Bool
  | [] => true
  | t :: _ => !hasComment t.leading

/-- No comments around the node. -/
def Expr.Aside (e : Expr) : Prop := e.ann = {} ∧ quiet e.tokens = true

/-- A token of the program. -/
def Short (N : Nat) (t : Token) : Prop := (outTok t).isNote N = false

mutual
/-- Comments lead statements, no function that is listed in the settings is called, tokens are short. -/
def Expr.Noted (o : Opts) (N : Nat) : Expr → Prop
  | .atom a _ t => a.Led o ∧ Short N t ∧ t.kind ≠ .stringContent
  | .str a p c l => a.Led o ∧ Short N p ∧ (∀ t ∈ c, Short N t) ∧ Short N l
  | .paren a l e r => a.Led o ∧ Short N l ∧ e.ann = {} ∧ commentsDirect e.tokens = false ∧ e.Noted o N ∧ Short N r
  | .braced a l es r => a.Led o ∧ Short N l ∧ ((curlyCurly true es).isSome = true → es.comments = []) ∧
      es.Noted o N ∧ Short N r
  | .unary a p e => a.Led o ∧ Short N p ∧ e.ann = {} ∧ e.Noted o N
  | .binary a x p y => a.Led o ∧ x.ann = {} ∧ x.Noted o N ∧ Short N p ∧ y.Aside ∧ y.Noted o N
  | .sel a k x p y => a.Led o ∧ x.ann = {} ∧ x.Noted o N ∧ Short N p ∧ y.ann = {} ∧ y.Noted o N ∧
      (k = .namespace → y.isTerminal = true)
  | .call a _ f aa l items r => a.Led o ∧ aa = {} ∧ listed o f = false ∧ f.ann = {} ∧ f.Noted o N ∧ Short N l ∧
      items.Noted o N ∧ Short N r ∧ hasComment r.leading = false
  | .func a kw pa l items r b => a.Led o ∧ pa = {} ∧ Short N kw ∧ Short N l ∧ items.comments = [] ∧
      items.Noted o N ∧ Short N r ∧ b.Aside ∧ b.Noted o N
  | .ite a kw l c r t => a.Led o ∧ Short N kw ∧ Short N l ∧ c.ann = {} ∧ c.Noted o N ∧ Short N r ∧
      t.Aside ∧ t.Noted o N
  | .itee a kw l c r t ea el e => a.Led o ∧ ea = {} ∧ Short N kw ∧ Short N l ∧ c.ann = {} ∧ c.Noted o N ∧ Short N r ∧
      t.Aside ∧ t.Noted o N ∧ Short N el ∧ hasComment el.leading = false ∧ e.Aside ∧ e.Noted o N
  | .for_ a kw l v i s r b => a.Led o ∧ Short N kw ∧ Short N l ∧ v.ann = {} ∧ v.Noted o N ∧ Short N i ∧
      s.ann = {} ∧ s.Noted o N ∧ Short N r ∧ b.ann = {} ∧ b.Noted o N
  | .while_ a kw l c r b => a.Led o ∧ Short N kw ∧ Short N l ∧ c.ann = {} ∧ c.Noted o N ∧ Short N r ∧
      b.ann = {} ∧ b.Noted o N
  | .repeat_ a kw b => a.Led o ∧ Short N kw ∧ b.ann = {} ∧ b.Noted o N
def Exprs.Noted (o : Opts) (N : Nat) : Exprs → Prop
  | .nil => True
  | .cons e es => e.Noted o N ∧ es.Noted o N
def Items.Noted (o : Opts) (N : Nat) : Items → Prop
  | .nil => True
  | .last x => x.Noted o N
  | .cons x s xs => x.Noted o N ∧ Short N s ∧ xs.Noted o N
def Arg.Noted (o : Opts) (N : Nat) : Arg → Prop
  | .hole a => a = {}
  | .val a e => a = {} ∧ e.ann = {} ∧ commentsDirect e.tokens = false ∧ e.Noted o N
  | .name a na n p => a = {} ∧ na = {} ∧ n.Aside ∧ n.Noted o N ∧ Short N p
  | .named a na n p e => a = {} ∧ na = {} ∧ n.Aside ∧ n.Noted o N ∧ Short N p ∧ e.ann = {} ∧ e.Noted o N
  | .pdef a n da p e => a = {} ∧ n.Aside ∧ n.Noted o N ∧ da = {} ∧ Short N p ∧ e.ann = {} ∧ e.Noted o N
end

theorem Expr.Noted.led {e : Expr} (h : e.Noted o N) : e.ann.Led o := by
  cases e <;> exact h.1

theorem Arg.Noted.ann {y : Arg} (h : y.Noted o N) : y.ann = {} := by
  cases y with
  | hole a => exact h
  | _ => exact h.1

theorem Ann.Led.none {a : Ann} (h : a.Led o) (d : Directive.Directive) (dir : Bool) : hasDirective o dir a d = false := by
  unfold hasDirective
  have : a.leading.any (fun c => o.directive c.text == some d) = false := by
    rw [List.any_eq_false]
    intro c hc
    rw [(h.2.2 c hc).1]
    simp
  rw [this, Bool.and_false]

theorem noted_setting {f : Expr} (h : listed o f = false) : inSetting o.skip f = false ∧ inSetting o.table f = false := by
  unfold inSetting calleeName
  unfold listed at h
  constructor <;> (split <;> rename_i hq <;> split at hq <;> simp_all)

theorem noted_suppressed {e : Expr} (h : e.Noted o N) (cx : Cx) : suppressed o cx e = false := by
  have hd := h.led.none .skip cx.dir
  cases e with
  | call a k f aa l items r =>
    cases k with
    | call =>
      simp only [Expr.ann] at hd
      simp only [suppressed, hd, Bool.false_or]
      exact (noted_setting h.2.2.1).1
    | _ => exact hd
  | _ => exact hd

/-! ## First tokens -/

theorem voiced_head : (e : Expr) → (h : Token → Token) → ∃ t ts ts', e.tokens = t :: ts ∧ (e.voiced N h).tokens = h t :: ts'
  | .atom _ _ t, h => ⟨t, [], [], rfl, rfl⟩
  | .str _ p c l, h => ⟨p, _, _, rfl, rfl⟩
  | .paren _ l e r, h => ⟨l, _, _, rfl, rfl⟩
  | .braced _ l es r, h => ⟨l, _, _, rfl, rfl⟩
  | .unary _ p e, h => ⟨p, _, _, rfl, rfl⟩
  | .binary _ x p y, h => by
    obtain ⟨t, ts, ts', h1, h2⟩ := voiced_head x h
    simp [Expr.voiced, Expr.tokens, h1, h2]
  | .sel _ k x p y, h => by
    obtain ⟨t, ts, ts', h1, h2⟩ := voiced_head x h
    simp [Expr.voiced, Expr.tokens, h1, h2]
  | .call _ k f _ l items r, h => by
    obtain ⟨t, ts, ts', h1, h2⟩ := voiced_head f h
    simp [Expr.voiced, Expr.tokens, h1, h2]
  | .func _ kw _ l items r b, h => ⟨kw, _, _, rfl, rfl⟩
  | .ite _ kw l c r t, h => ⟨kw, _, _, rfl, rfl⟩
  | .itee _ kw l c r t _ el e, h => ⟨kw, _, _, rfl, rfl⟩
  | .for_ _ kw l v i s r b, h => ⟨kw, _, _, rfl, rfl⟩
  | .while_ _ kw l c r b, h => ⟨kw, _, _, rfl, rfl⟩
  | .repeat_ _ kw b, h => ⟨kw, _, _, rfl, rfl⟩

theorem voiced_linesBefore (e : Expr) : linesBefore (e.voiced N hush).tokens = linesBefore e.tokens := by
  obtain ⟨t, ts, ts', h1, h2⟩ := voiced_head (N := N) e hush
  rw [h1, h2]
  exact hush_lines t

theorem voiced_fresh (e : Expr) (n : Nat) : linesBefore (e.voiced N (fresh n)).tokens = n := by
  obtain ⟨t, ts, ts', h1, h2⟩ := voiced_head (N := N) e (fresh n)
  rw [h2]
  exact fresh_lines n t

theorem voiced_newline {e : Expr} (hq : quiet e.tokens = true) :
    leadingNewline (e.voiced N hush).tokens = leadingNewline e.tokens := by
  obtain ⟨t, ts, ts', h1, h2⟩ := voiced_head (N := N) e hush
  rw [h1] at hq
  rw [h1, h2]
  exact hush_newline (by simpa [quiet] using hq)

theorem direct_quiet {ts : List Token} (h : commentsDirect ts = false) : quiet ts = true := by
  cases ts with
  | nil => rfl
  | cons t ts =>
    unfold commentsDirect at h
    unfold quiet
    simp_all

/-! ## Shapes -/

theorem voiced_isBraced (e : Expr) (h : Token → Token) : (e.voiced N h).isBraced = e.isBraced := by cases e <;> rfl
theorem voiced_isIf (e : Expr) (h : Token → Token) : (e.voiced N h).isIf = e.isIf := by cases e <;> rfl
theorem voiced_isTerminal (e : Expr) (h : Token → Token) : (e.voiced N h).isTerminal = e.isTerminal := by
  cases e <;> rfl
theorem voiced_isCall (e : Expr) (h : Token → Token) : (e.voiced N h).isCall = e.isCall := by cases e <;> rfl
theorem voiced_isStr (e : Expr) (h : Token → Token) : (e.voiced N h).isStr = e.isStr := by cases e <;> rfl
theorem voiced_isChain (e : Expr) (h : Token → Token) : (e.voiced N h).isChain = e.isChain := by cases e <;> rfl
theorem voiced_ann (e : Expr) (h : Token → Token) : (e.voiced N h).ann = {} := by cases e <;> rfl

theorem voiced_calleeName {h : Token → Token} (hh : Mild h) (e : Expr) : calleeName (e.voiced N h) = calleeName e := by
  cases e with
  | atom a k t => cases k <;> simp [calleeName, Expr.voiced, hh.text]
  | sel a k x p y =>
    cases k with
    | extract => rfl
    | «namespace» =>
      cases y with
      | atom a k t =>
        cases k <;> simp [calleeName, Expr.voiced, mild_hush.text]
      | _ => rfl
  | _ => rfl

theorem voiced_listed (hh : Mild h) (e : Expr) : listed o (e.voiced N h) = listed o e := by
  rw [listed_callee, listed_callee, voiced_calleeName hh]

/-! ## No comments are left -/

theorem notes_simple {k : Nat → Exprs} (hk : ∀ n, (k n).Simple o) : ∀ (cs : List Comment) (n : Nat), (notes N n cs k).Simple o
  | [], n => hk n
  | c :: cs, n => ⟨⟨rfl, ⟨nls_comment n, rfl⟩, by rintro ⟨⟩⟩, notes_simple hk cs _⟩

mutual
theorem simple_voiced : (e : Expr) → e.Noted o N → ∀ h : Token → Token, Mild h → (e.voiced N h).Simple o
  | .atom a k t, hn, h, hh => ⟨rfl, hh.bland t, by rw [hh.kind]; exact hn.2.2⟩
  | .str a p c l, hn, h, hh => by
    refine ⟨rfl, hh.bland p, ?_, hush_bland l⟩
    intro t ht
    cases c with
    | none => simp at ht
    | some c => simp at ht; subst ht; exact hush_bland c
  | .paren a l e r, hn, h, hh => by
    obtain ⟨-, -, -, -, h1, -⟩ := hn
    exact ⟨rfl, hh.bland l, simple_voiced e h1 _ mild_hush, hush_bland r⟩
  | .braced a l es r, hn, h, hh => by
    obtain ⟨-, -, -, h1, -⟩ := hn
    exact ⟨rfl, hh.bland l, simples_voiced es h1, hush_bland r⟩
  | .unary a p e, hn, h, hh => by
    obtain ⟨-, -, -, h1⟩ := hn
    exact ⟨rfl, hh.bland p, simple_voiced e h1 _ mild_hush⟩
  | .binary a x p y, hn, h, hh => by
    obtain ⟨-, -, h1, -, -, h2⟩ := hn
    exact ⟨rfl, simple_voiced x h1 _ hh, hush_bland p, simple_voiced y h2 _ mild_hush⟩
  | .sel a k x p y, hn, h, hh => by
    obtain ⟨-, -, h1, -, -, h2, h3⟩ := hn
    exact ⟨rfl, simple_voiced x h1 _ hh, hush_bland p, simple_voiced y h2 _ mild_hush,
      by rw [voiced_isTerminal]; exact h3⟩
  | .call a k f aa l items r, hn, h, hh => by
    obtain ⟨-, -, h0, -, h1, -, h2, -, -⟩ := hn
    exact ⟨rfl, rfl, by rw [voiced_listed hh]; exact h0, simple_voiced f h1 _ hh, hush_bland l,
      simple_voicedItems items h2, hush_bland r⟩
  | .func a kw pa l items r b, hn, h, hh => by
    obtain ⟨-, -, -, -, -, h1, -, -, h2⟩ := hn
    exact ⟨rfl, rfl, hh.bland kw, hush_bland l, simple_voicedItems items h1, hush_bland r,
      simple_voiced b h2 _ mild_hush⟩
  | .ite a kw l c r t, hn, h, hh => by
    obtain ⟨-, -, -, -, h1, -, -, h2⟩ := hn
    exact ⟨rfl, hh.bland kw, hush_bland l, simple_voiced c h1 _ mild_hush, hush_bland r,
      simple_voiced t h2 _ mild_hush⟩
  | .itee a kw l c r t ea el e, hn, h, hh => by
    obtain ⟨-, -, -, -, -, h1, -, -, h2, -, -, -, h3⟩ := hn
    exact ⟨rfl, rfl, hh.bland kw, hush_bland l, simple_voiced c h1 _ mild_hush, hush_bland r,
      simple_voiced t h2 _ mild_hush, hush_bland el, simple_voiced e h3 _ mild_hush⟩
  | .for_ a kw l v i s r b, hn, h, hh => by
    obtain ⟨-, -, -, -, h1, -, -, h2, -, -, h3⟩ := hn
    exact ⟨rfl, hh.bland kw, hush_bland l, simple_voiced v h1 _ mild_hush, hush_bland i,
      simple_voiced s h2 _ mild_hush, hush_bland r, simple_voiced b h3 _ mild_hush⟩
  | .while_ a kw l c r b, hn, h, hh => by
    obtain ⟨-, -, -, -, h1, -, -, h2⟩ := hn
    exact ⟨rfl, hh.bland kw, hush_bland l, simple_voiced c h1 _ mild_hush, hush_bland r,
      simple_voiced b h2 _ mild_hush⟩
  | .repeat_ a kw b, hn, h, hh => by
    obtain ⟨-, -, -, h1⟩ := hn
    exact ⟨rfl, hh.bland kw, simple_voiced b h1 _ mild_hush⟩
theorem simples_voiced : (es : Exprs) → es.Noted o N → (es.voiced N).Simple o
  | .nil, _ => trivial
  | .cons e es, hn => by
    rw [Exprs.voiced]
    exact notes_simple (k := fun n => .cons (e.voiced N (fresh n)) (es.voiced N)) (fun n => ⟨simple_voiced e hn.1 _ (mild_fresh n), simples_voiced es hn.2⟩) _ _
theorem simple_voicedItems : (xs : Items) → xs.Noted o N → (xs.voiced N).Simple o
  | .nil, _ => trivial
  | .last x, hn => simple_voicedArg x hn
  | .cons x s xs, hn => ⟨simple_voicedArg x hn.1, hush_bland s, simple_voicedItems xs hn.2.2⟩
theorem simple_voicedArg : (x : Arg) → x.Noted o N → (x.voiced N).Simple o
  | .hole a, _ => rfl
  | .val a e, hn => ⟨rfl, simple_voiced e hn.2.2.2 _ mild_hush⟩
  | .name a na n p, hn => by
    obtain ⟨-, -, -, h1, -⟩ := hn
    exact ⟨rfl, rfl, simple_voiced n h1 _ mild_hush, hush_bland p⟩
  | .named a na n p e, hn => by
    obtain ⟨-, -, -, h1, -, -, h2⟩ := hn
    exact ⟨rfl, rfl, simple_voiced n h1 _ mild_hush, hush_bland p, simple_voiced e h2 _ mild_hush⟩
  | .pdef a n da p e, hn => by
    obtain ⟨-, -, h1, -, -, -, h2⟩ := hn
    exact ⟨rfl, simple_voiced n h1 _ mild_hush, rfl, hush_bland p, simple_voiced e h2 _ mild_hush⟩
end

end Verif.Format
