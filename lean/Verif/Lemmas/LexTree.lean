import Verif.Lemmas.LexGlue
import Verif.Spec.Becomes
import Verif.Lemmas.FormatToks

/-!
# The spelling of programs
-/

namespace Verif.Format
open Verif.Syntax

/-- A token of one of the kinds, spelled as such. -/
def Is (ks : List Kind) (t : Token) : Prop := t.kind ∈ ks ∧ Word (outTok t)

/-- A string. -/
def Quoted (op : Token) (c : Option Token) (cl : Token) : Prop :=
  Is [.stringOpen] op ∧ (∀ t ∈ c, t.kind = .stringContent ∧ InString (outTok op).text (outTok t)) ∧
    cl.kind = .stringClose ∧ InString (outTok op).text (outTok cl)

/-- The texts of comments. -/
def AnnOk (a : Ann) : Prop := ∀ c ∈ a.all, CommentText c.text

def atomKinds : List Kind :=
  [.ident, .dots, .dotdoti, .rIntegerLiteral, .rDoubleLiteral, .rComplexLiteral, .nextKw, .breakKw,
   .trueKw, .falseKw, .nullKw, .infKw, .nanKw, .naLogicalKw, .naIntegerKw, .naDoubleKw, .naComplexKw,
   .naCharacterKw]

def unKinds : List Kind := [.wat, .tilde, .bang, .plus, .minus]

def selKinds : List Kind := [.dollar, .atSign, .colon2, .colon3]

def binKinds : List Kind :=
  [.wat, .equal, .assign, .superAssign, .walrus, .assignRight, .superAssignRight, .tilde, .orOp, .or2,
   .andOp, .and2, .lessThan, .lessThanOrEqualTo, .greaterThan, .greaterThanOrEqualTo, .equal2, .notEqual,
   .plus, .minus, .multiply, .divide, .special, .pipe, .colon, .exponentiate, .exponentiate2]

mutual
/-- The tokens of the expression are spelled as such. -/
def Expr.lexical : Expr → Prop
  | .atom a _ t => AnnOk a ∧ Is atomKinds t
  | .str a op c cl => AnnOk a ∧ Quoted op c cl
  | .paren a l e r => AnnOk a ∧ Is [.lParen] l ∧ e.lexical ∧ Is [.rParen] r
  | .braced a l es r => AnnOk a ∧ Is [.lCurly] l ∧ es.lexical ∧ Is [.rCurly] r
  | .unary a op e => AnnOk a ∧ Is unKinds op ∧ e.lexical
  | .binary a x op y => AnnOk a ∧ x.lexical ∧ Is binKinds op ∧ y.lexical
  | .sel a _ x op y => AnnOk a ∧ x.lexical ∧ Is selKinds op ∧ y.lexical
  | .call a k f aa l items r => AnnOk a ∧ f.lexical ∧ AnnOk aa ∧ Is [openKind k] l ∧ items.lexical ∧
      r.kind = closeKind k ∧ Lexeme (outTok r)
  | .func a kw pa l items r b => AnnOk a ∧ Is [.functionKw, .backslash] kw ∧ AnnOk pa ∧ Is [.lParen] l ∧
      items.lexical ∧ Is [.rParen] r ∧ b.lexical
  | .ite a kw l c r t => AnnOk a ∧ Is [.ifKw] kw ∧ Is [.lParen] l ∧ c.lexical ∧ Is [.rParen] r ∧ t.lexical
  | .itee a kw l c r t ea el e => AnnOk a ∧ Is [.ifKw] kw ∧ Is [.lParen] l ∧ c.lexical ∧ Is [.rParen] r ∧
      t.lexical ∧ AnnOk ea ∧ Is [.elseKw] el ∧ e.lexical
  | .for_ a kw l v i s r b => AnnOk a ∧ Is [.forKw] kw ∧ Is [.lParen] l ∧ v.lexical ∧ Is [.inKw] i ∧
      s.lexical ∧ Is [.rParen] r ∧ b.lexical
  | .while_ a kw l c r b => AnnOk a ∧ Is [.whileKw] kw ∧ Is [.lParen] l ∧ c.lexical ∧ Is [.rParen] r ∧
      b.lexical
  | .repeat_ a kw b => AnnOk a ∧ Is [.repeatKw] kw ∧ b.lexical
def Exprs.lexical : Exprs → Prop
  | .nil => True
  | .cons e es => e.lexical ∧ es.lexical
def Items.lexical : Items → Prop
  | .nil => True
  | .last x => x.lexical
  | .cons x s xs => x.lexical ∧ Is [.comma] s ∧ xs.lexical
def Arg.lexical : Arg → Prop
  | .hole a => AnnOk a
  | .val a e => AnnOk a ∧ e.lexical
  | .name a na n q => AnnOk a ∧ AnnOk na ∧ n.lexical ∧ Is [.equal] q
  | .named a na n q e => AnnOk a ∧ AnnOk na ∧ n.lexical ∧ Is [.equal] q ∧ e.lexical
  | .pdef a n da q e => AnnOk a ∧ n.lexical ∧ AnnOk da ∧ Is [.equal] q ∧ e.lexical
end

/-! ## From the tokens -/

/-- The tokens are spelled as such. -/
def Lexed (ts : List Token) : Prop :=
  (∀ t ∈ ts, t.kind ≠ .stringContent → t.kind ≠ .stringClose → Lexeme (outTok t)) ∧
  ∀ a op c cl b, ts = a ++ op :: (Option.toList c ++ cl :: b) → strKinds op c cl = true → Quoted op c cl

theorem Lexed.left {x y : List Token} (h : Lexed (x ++ y)) : Lexed x := by
  refine ⟨fun t ht => h.1 t (List.mem_append_left _ ht), ?_⟩
  intro a op c cl b hx hk
  refine h.2 a op c cl (b ++ y) ?_ hk
  rw [hx]
  simp

theorem Lexed.right {x y : List Token} (h : Lexed (x ++ y)) : Lexed y := by
  refine ⟨fun t ht => h.1 t (List.mem_append_right _ ht), ?_⟩
  intro a op c cl b hx hk
  refine h.2 (x ++ a) op c cl b ?_ hk
  rw [hx]
  simp

theorem Lexed.tail {t : Token} {x : List Token} (h : Lexed (t :: x)) : Lexed x :=
  Lexed.right (x := [t]) h

theorem Lexed.is {t : Token} {x : List Token} (h : Lexed (t :: x)) {ks : List Kind} (hk : t.kind ∈ ks)
    (hks : Kind.rBrack2 ∉ ks ∧ Kind.stringContent ∉ ks ∧ Kind.stringClose ∉ ks) : Is ks t := by
  refine ⟨hk, ?_⟩
  rcases h.1 t (List.mem_cons_self ..) (fun h => hks.2.1 (h ▸ hk)) (fun h => hks.2.2 (h ▸ hk)) with h | ⟨h, -⟩
  · exact h
  · have h : t.kind = .rBrack2 := h
    exact absurd (h ▸ hk) hks.1

theorem Lexed.eq {t : Token} {x : List Token} (h : Lexed (t :: x)) {k : Kind} (hk : (t.kind == k) = true)
    (hks : Kind.rBrack2 ≠ k ∧ Kind.stringContent ≠ k ∧ Kind.stringClose ≠ k) : Is [k] t :=
  h.is (by simpa using hk) (by simpa using hks)

theorem Lexed.quoted {op : Token} {c : Option Token} {cl : Token} (h : Lexed (op :: (c.toList ++ [cl])))
    (hk : strKinds op c cl = true) : Quoted op c cl :=
  h.2 [] op c cl [] rfl hk

theorem annOk_of {a : Ann} {cs : List Comment} (h : ∀ c ∈ a.all ++ cs, CommentText c.text) :
    AnnOk a ∧ ∀ c ∈ cs, CommentText c.text :=
  ⟨fun c hc => h c (List.mem_append_left _ hc), fun c hc => h c (List.mem_append_right _ hc)⟩

theorem comments_of {a b : List Comment} (h : ∀ c ∈ a ++ b, CommentText c.text) :
    (∀ c ∈ a, CommentText c.text) ∧ ∀ c ∈ b, CommentText c.text :=
  ⟨fun c hc => h c (List.mem_append_left _ hc), fun c hc => h c (List.mem_append_right _ hc)⟩

theorem atom_lexical {a : Ann} {k : Kind} {t : Token} (h : Lexed [t]) (hc : AnnOk a)
    (hk : (atomKind t.kind == some k) = true) : (Expr.atom a k t).lexical := by
  refine ⟨hc, h.is ?_ (by decide)⟩
  have hk : atomKind t.kind = some k := by simpa using hk
  generalize t.kind = k' at hk
  cases k' <;> first | (cases hk; done) | decide

mutual
theorem gram_lexical : ∀ (e : Expr) (eq : Bool), e.gram eq = true → Lexed e.tokens →
    (∀ c ∈ e.comments, CommentText c.text) → e.lexical
  | .atom a k t, eq, hg, hl, hc => by
    simp only [Expr.gram] at hg
    exact atom_lexical hl hc hg
  | .str a op c cl, eq, hg, hl, hc => by
    simp only [Expr.gram] at hg
    exact ⟨hc, hl.quoted hg⟩
  | .paren a l e r, eq, hg, hl, hc => by
    simp only [Expr.gram, Bool.and_eq_true] at hg
    simp only [Expr.tokens] at hl
    obtain ⟨c1, c2⟩ := annOk_of hc
    exact ⟨c1, hl.eq hg.1.1 (by decide), gram_lexical e true hg.1.2 hl.tail.left c2,
      hl.tail.right.eq hg.2 (by decide)⟩
  | .braced a l es r, eq, hg, hl, hc => by
    simp only [Expr.gram, Bool.and_eq_true] at hg
    simp only [Expr.tokens] at hl
    obtain ⟨c1, c2⟩ := annOk_of hc
    exact ⟨c1, hl.eq hg.1.1 (by decide), gram_lexicals es hg.1.2 hl.tail.left c2,
      hl.tail.right.eq hg.2 (by decide)⟩
  | .unary a op e, eq, hg, hl, hc => by
    simp only [Expr.gram] at hg
    simp only [Expr.tokens] at hl
    obtain ⟨c1, c2⟩ := annOk_of hc
    cases ho : unOp op.kind with
    | none => rw [ho] at hg; cases hg
    | some rm =>
      rw [ho] at hg
      simp only [Bool.and_eq_true] at hg
      refine ⟨c1, hl.is ?_ (by decide), gram_lexical e _ hg.1 hl.tail c2⟩
      generalize op.kind = k' at ho
      cases k' <;> first | (cases ho; done) | decide
  | .binary a x op y, eq, hg, hl, hc => by
    simp only [Expr.gram] at hg
    simp only [Expr.tokens] at hl
    simp only [Expr.comments] at hc
    obtain ⟨c0, c3⟩ := comments_of hc
    obtain ⟨c1, c2⟩ := annOk_of c0
    cases ho : binOp op.kind with
    | none => rw [ho] at hg; cases hg
    | some p =>
      rw [ho] at hg
      simp only [Bool.and_eq_true] at hg
      refine ⟨c1, gram_lexical x _ hg.1.1.1.1 hl.left c2, hl.right.is ?_ (by decide),
        gram_lexical y _ hg.1.1.1.2 hl.right.tail c3⟩
      generalize op.kind = k' at ho
      cases k' <;> first | (cases ho; done) | decide
  | .sel a .extract x op y, eq, hg, hl, hc => by
    simp only [Expr.gram, Bool.and_eq_true] at hg
    simp only [Expr.tokens] at hl
    simp only [Expr.comments] at hc
    obtain ⟨c0, c3⟩ := comments_of hc
    obtain ⟨c1, c2⟩ := annOk_of c0
    refine ⟨c1, gram_lexical x _ hg.1.1.1 hl.left c2, hl.right.is ?_ (by decide),
      selector_lexical hg.2 hl.right.tail c3⟩
    have ho := hg.1.2
    generalize op.kind = k' at ho
    cases k' <;> first | (cases ho; done) | decide
  | .sel a .namespace x op y, eq, hg, hl, hc => by
    simp only [Expr.gram, Bool.and_eq_true] at hg
    simp only [Expr.tokens] at hl
    simp only [Expr.comments] at hc
    obtain ⟨c0, c3⟩ := comments_of hc
    obtain ⟨c1, c2⟩ := annOk_of c0
    refine ⟨c1, selector_lexical hg.1.1 hl.left c2, hl.right.is ?_ (by decide),
      selector_lexical hg.2 hl.right.tail c3⟩
    have ho := hg.1.2
    generalize op.kind = k' at ho
    cases k' <;> first | (cases ho; done) | decide
  | .call a k f aa l items r, eq, hg, hl, hc => by
    simp only [Expr.gram, Bool.and_eq_true] at hg
    simp only [Expr.tokens] at hl
    simp only [Expr.comments] at hc
    obtain ⟨c0, c4⟩ := comments_of hc
    obtain ⟨c0, c3⟩ := comments_of c0
    obtain ⟨c1, c2⟩ := annOk_of c0
    have hr : r.kind = closeKind k := by simpa using hg.2
    refine ⟨c1, gram_lexical f _ hg.1.1.1.1 hl.left c2, c3, hl.right.eq hg.1.1.2 (by cases k <;> decide),
      gram_lexicalArgs items _ hg.1.2 hl.right.tail.left c4, hr, ?_⟩
    refine hl.right.tail.right.1 r (List.mem_singleton.2 rfl) ?_ ?_
    · rw [hr]; cases k <;> decide
    · rw [hr]; cases k <;> decide
  | .func a kw pa l items r b, eq, hg, hl, hc => by
    simp only [Expr.gram, Bool.and_eq_true] at hg
    simp only [Expr.tokens] at hl
    simp only [Expr.comments] at hc
    obtain ⟨c0, c4⟩ := comments_of hc
    obtain ⟨c0, c3⟩ := comments_of c0
    obtain ⟨c1, c2⟩ := annOk_of c0
    exact ⟨c1, hl.is (by simpa using hg.1.1.1.1.1) (by decide), c2, hl.tail.eq hg.1.1.1.1.2 (by decide),
      gram_lexicalPars items hg.1.1.1.2 hl.tail.tail.left c3, hl.tail.tail.right.eq hg.1.1.2 (by decide),
      gram_lexical b _ hg.1.2 hl.tail.tail.right.tail c4⟩
  | .ite a kw l c r t, eq, hg, hl, hc => by
    simp only [Expr.gram, Bool.and_eq_true] at hg
    simp only [Expr.tokens] at hl
    simp only [Expr.comments] at hc
    obtain ⟨c0, c3⟩ := comments_of hc
    obtain ⟨c1, c2⟩ := annOk_of c0
    exact ⟨c1, hl.eq hg.1.1.1.1.1 (by decide), hl.tail.eq hg.1.1.1.1.2 (by decide),
      gram_lexical c _ hg.1.1.1.2 hl.tail.tail.left c2, hl.tail.tail.right.eq hg.1.1.2 (by decide),
      gram_lexical t _ hg.1.2 hl.tail.tail.right.tail c3⟩
  | .itee a kw l c r t ea el e, eq, hg, hl, hc => by
    simp only [Expr.gram, Bool.and_eq_true] at hg
    simp only [Expr.tokens] at hl
    simp only [Expr.comments] at hc
    obtain ⟨c0, c5⟩ := comments_of hc
    obtain ⟨c0, c4⟩ := comments_of c0
    obtain ⟨c0, c3⟩ := comments_of c0
    obtain ⟨c1, c2⟩ := annOk_of c0
    exact ⟨c1, hl.eq hg.1.1.1.1.1.1.1.1.1 (by decide), hl.tail.eq hg.1.1.1.1.1.1.1.1.2 (by decide),
      gram_lexical c _ hg.1.1.1.1.1.1.1.2 hl.tail.tail.left c2,
      hl.tail.tail.right.eq hg.1.1.1.1.1.1.2 (by decide),
      gram_lexical t _ hg.1.1.1.1.1.2 hl.tail.tail.right.tail.left c3, c4,
      hl.tail.tail.right.tail.right.eq hg.1.1.2 (by decide),
      gram_lexical e _ hg.1.2 hl.tail.tail.right.tail.right.tail c5⟩
  | .for_ a kw l v i s r b, eq, hg, hl, hc => by
    simp only [Expr.gram, Bool.and_eq_true] at hg
    simp only [Expr.tokens] at hl
    simp only [Expr.comments] at hc
    obtain ⟨c0, c4⟩ := comments_of hc
    obtain ⟨c0, c3⟩ := comments_of c0
    obtain ⟨c1, c2⟩ := annOk_of c0
    exact ⟨c1, hl.eq hg.1.1.1.1.1.1.1 (by decide), hl.tail.eq hg.1.1.1.1.1.1.2 (by decide),
      parName_lexical hg.1.1.1.1.1.2 hl.tail.tail.left c2, hl.tail.tail.right.eq hg.1.1.1.1.2 (by decide),
      gram_lexical s _ hg.1.1.1.2 hl.tail.tail.right.tail.left c3,
      hl.tail.tail.right.tail.right.eq hg.1.1.2 (by decide),
      gram_lexical b _ hg.1.2 hl.tail.tail.right.tail.right.tail c4⟩
  | .while_ a kw l c r b, eq, hg, hl, hc => by
    simp only [Expr.gram, Bool.and_eq_true] at hg
    simp only [Expr.tokens] at hl
    simp only [Expr.comments] at hc
    obtain ⟨c0, c3⟩ := comments_of hc
    obtain ⟨c1, c2⟩ := annOk_of c0
    exact ⟨c1, hl.eq hg.1.1.1.1.1 (by decide), hl.tail.eq hg.1.1.1.1.2 (by decide),
      gram_lexical c _ hg.1.1.1.2 hl.tail.tail.left c2, hl.tail.tail.right.eq hg.1.1.2 (by decide),
      gram_lexical b _ hg.1.2 hl.tail.tail.right.tail c3⟩
  | .repeat_ a kw b, eq, hg, hl, hc => by
    simp only [Expr.gram, Bool.and_eq_true] at hg
    simp only [Expr.tokens] at hl
    obtain ⟨c1, c2⟩ := annOk_of hc
    exact ⟨c1, hl.eq hg.1.1 (by decide), gram_lexical b _ hg.1.2 hl.tail c2⟩
theorem selector_lexical : ∀ {e : Expr}, e.selector = true → Lexed e.tokens →
    (∀ c ∈ e.comments, CommentText c.text) → e.lexical
  | .atom a k t, hg, hl, hc => by
    simp only [Expr.selector, Bool.and_eq_true] at hg
    exact atom_lexical hl hc hg.1
  | .str a op c cl, hg, hl, hc => ⟨hc, hl.quoted hg⟩
  | .paren .., hg, _, _ | .braced .., hg, _, _ | .unary .., hg, _, _ | .binary .., hg, _, _
  | .sel .., hg, _, _ | .call .., hg, _, _ | .func .., hg, _, _ | .ite .., hg, _, _ | .itee .., hg, _, _
  | .for_ .., hg, _, _ | .while_ .., hg, _, _ | .repeat_ .., hg, _, _ => by cases hg
theorem argName_lexical : ∀ {e : Expr}, e.argName = true → Lexed e.tokens →
    (∀ c ∈ e.comments, CommentText c.text) → e.lexical
  | .atom a k t, hg, hl, hc => by
    simp only [Expr.argName, Bool.and_eq_true] at hg
    exact atom_lexical hl hc hg.1
  | .str a op c cl, hg, hl, hc => ⟨hc, hl.quoted hg⟩
  | .paren .., hg, _, _ | .braced .., hg, _, _ | .unary .., hg, _, _ | .binary .., hg, _, _
  | .sel .., hg, _, _ | .call .., hg, _, _ | .func .., hg, _, _ | .ite .., hg, _, _ | .itee .., hg, _, _
  | .for_ .., hg, _, _ | .while_ .., hg, _, _ | .repeat_ .., hg, _, _ => by cases hg
theorem parName_lexical : ∀ {e : Expr}, e.parName = true → Lexed e.tokens →
    (∀ c ∈ e.comments, CommentText c.text) → e.lexical
  | .atom a k t, hg, hl, hc => by
    simp only [Expr.parName, Bool.and_eq_true] at hg
    exact atom_lexical hl hc hg.1
  | .str .., hg, _, _
  | .paren .., hg, _, _ | .braced .., hg, _, _ | .unary .., hg, _, _ | .binary .., hg, _, _
  | .sel .., hg, _, _ | .call .., hg, _, _ | .func .., hg, _, _ | .ite .., hg, _, _ | .itee .., hg, _, _
  | .for_ .., hg, _, _ | .while_ .., hg, _, _ | .repeat_ .., hg, _, _ => by cases hg
theorem gram_lexicals : ∀ (es : Exprs), es.gram = true → Lexed es.tokens →
    (∀ c ∈ es.comments, CommentText c.text) → es.lexical
  | .nil, _, _, _ => trivial
  | .cons e es, hg, hl, hc => by
    simp only [Exprs.gram, Bool.and_eq_true] at hg
    simp only [Exprs.tokens] at hl
    obtain ⟨c1, c2⟩ := comments_of hc
    exact ⟨gram_lexical e _ hg.1 hl.left c1, gram_lexicals es hg.2 hl.right c2⟩
theorem gram_lexicalArgs : ∀ (xs : Items) (first : Bool), xs.gramArgs first = true → Lexed xs.tokens →
    (∀ c ∈ xs.comments, CommentText c.text) → xs.lexical
  | .nil, _, _, _, _ => trivial
  | .last x, first, hg, hl, hc => by
    simp only [Items.gramArgs, Bool.and_eq_true] at hg
    exact gram_lexicalArg x hg.1 hl hc
  | .cons x s xs, first, hg, hl, hc => by
    simp only [Items.gramArgs, Bool.and_eq_true] at hg
    simp only [Items.tokens] at hl
    obtain ⟨c1, c2⟩ := comments_of hc
    exact ⟨gram_lexicalArg x hg.1.1 hl.left c1, hl.right.eq hg.1.2 (by decide),
      gram_lexicalArgs xs _ hg.2 hl.right.tail c2⟩
theorem gram_lexicalArg : ∀ (x : Arg), x.gramArg = true → Lexed x.tokens →
    (∀ c ∈ x.comments, CommentText c.text) → x.lexical
  | .hole a, _, _, hc => hc
  | .val a e, hg, hl, hc => by
    obtain ⟨c1, c2⟩ := annOk_of hc
    exact ⟨c1, gram_lexical e _ hg hl c2⟩
  | .name a na n q, hg, hl, hc => by
    simp only [Arg.gramArg, Bool.and_eq_true] at hg
    simp only [Arg.tokens] at hl
    simp only [Arg.comments] at hc
    obtain ⟨c0, c3⟩ := comments_of hc
    obtain ⟨c1, c2⟩ := annOk_of c0
    exact ⟨c1, c2, argName_lexical hg.1 hl.left c3, hl.right.eq hg.2 (by decide)⟩
  | .named a na n q e, hg, hl, hc => by
    simp only [Arg.gramArg, Bool.and_eq_true] at hg
    simp only [Arg.tokens] at hl
    simp only [Arg.comments] at hc
    obtain ⟨c0, c4⟩ := comments_of hc
    obtain ⟨c0, c3⟩ := comments_of c0
    obtain ⟨c1, c2⟩ := annOk_of c0
    exact ⟨c1, c2, argName_lexical hg.1.1 hl.left c3, hl.right.eq hg.1.2 (by decide),
      gram_lexical e _ hg.2 hl.right.tail c4⟩
  | .pdef .., hg, _, _ => by cases hg
theorem gram_lexicalPars : ∀ (xs : Items), xs.gramPars = true → Lexed xs.tokens →
    (∀ c ∈ xs.comments, CommentText c.text) → xs.lexical
  | .nil, _, _, _ => trivial
  | .last x, hg, hl, hc => gram_lexicalPar x hg hl hc
  | .cons x s xs, hg, hl, hc => by
    simp only [Items.gramPars, Bool.and_eq_true] at hg
    simp only [Items.tokens] at hl
    obtain ⟨c1, c2⟩ := comments_of hc
    exact ⟨gram_lexicalPar x hg.1.1 hl.left c1, hl.right.eq hg.1.2 (by decide),
      gram_lexicalPars1 xs hg.2 hl.right.tail c2⟩
theorem gram_lexicalPars1 : ∀ (xs : Items), xs.gramPars1 = true → Lexed xs.tokens →
    (∀ c ∈ xs.comments, CommentText c.text) → xs.lexical
  | .nil, _, _, _ => trivial
  | .last x, hg, hl, hc => gram_lexicalPar x hg hl hc
  | .cons x s xs, hg, hl, hc => by
    simp only [Items.gramPars1, Bool.and_eq_true] at hg
    simp only [Items.tokens] at hl
    obtain ⟨c1, c2⟩ := comments_of hc
    exact ⟨gram_lexicalPar x hg.1.1 hl.left c1, hl.right.eq hg.1.2 (by decide),
      gram_lexicalPars1 xs hg.2 hl.right.tail c2⟩
theorem gram_lexicalPar : ∀ (x : Arg), x.gramPar = true → Lexed x.tokens →
    (∀ c ∈ x.comments, CommentText c.text) → x.lexical
  | .hole _, hg, _, _ => by cases hg
  | .name .., hg, _, _ => by cases hg
  | .named .., hg, _, _ => by cases hg
  | .val a e, hg, hl, hc => by
    obtain ⟨c1, c2⟩ := annOk_of hc
    exact ⟨c1, parName_lexical hg hl c2⟩
  | .pdef a n da q e, hg, hl, hc => by
    simp only [Arg.gramPar, Bool.and_eq_true] at hg
    simp only [Arg.tokens] at hl
    simp only [Arg.comments] at hc
    obtain ⟨c0, c4⟩ := comments_of hc
    obtain ⟨c0, c3⟩ := comments_of c0
    obtain ⟨c1, c2⟩ := annOk_of c0
    exact ⟨c1, parName_lexical hg.1.1 hl.left c2, c3, hl.right.eq hg.1.2 (by decide),
      gram_lexical e _ hg.2 hl.right.tail c4⟩
end

/-! ## From the text -/

/-- Every token can be the next one. -/
def Fines : List Tok → List Tok → Prop
  | _, [] => True
  | st, t :: ts => Fine st t ∧ Fines (openAfter st t) ts

theorem fines_tidy : ∀ (els : List El) (st : List Tok), Parted st els → Fines st (printedToks els)
  | [], _, _ => trivial
  | .tok _ :: els, _, h => ⟨h.1, fines_tidy els _ h.2.2⟩
  | .suffix .. :: els, st, h => fines_tidy els st h
  | .space :: els, st, h => fines_tidy els st h
  | .nl .. :: els, st, h => fines_tidy els st h
  | .comment .. :: els, st, h => fines_tidy els st h
  | .blank .. :: els, st, h => fines_tidy els st h
  | .rnl :: els, st, h => fines_tidy els st h

theorem Fine.code {st : List Tok} {t : Tok} (h : Fine st t) (h1 : t.kind ≠ .stringContent)
    (h2 : t.kind ≠ .stringClose) : openString st = none := by
  unfold Fine at h
  cases hq : openString st with
  | none => rfl
  | some q =>
    rw [hq] at h
    rcases h with ⟨h, _⟩ | ⟨h, _⟩
    · exact absurd h h2
    · exact absurd h h1

theorem Fine.inString {q : Tok} {st : List Tok} {t : Tok} (hq : q.kind = .stringOpen)
    (h : Fine (q :: st) t) : InString q.text t := by
  unfold Fine at h
  rw [openString_cons, if_pos hq] at h
  exact h

theorem lexed_fines : ∀ (ts : List Token) (st : List Tok), Fines st (ts.map outTok) → Lexed ts
  | [], st, _ => by
    refine ⟨(fun t h => by cases h), ?_⟩
    intro a op c cl b h
    have := congrArg List.length h
    simp only [List.length_nil, List.length_append, List.length_cons] at this
    omega
  | t :: ts, st, h => by
    have ih := lexed_fines ts _ h.2
    refine ⟨?_, ?_⟩
    · intro u hu h1 h2
      rcases List.mem_cons.1 hu with rfl | hu
      · exact Fine.lexeme (Fine.code h.1 h1 h2) h.1
      · exact ih.1 u hu h1 h2
    · intro a op c cl b hts hk
      cases a with
      | cons x a =>
        simp only [List.cons_append, List.cons.injEq] at hts
        exact ih.2 a op c cl b hts.2 hk
      | nil =>
        simp only [List.nil_append, List.cons.injEq] at hts
        obtain ⟨rfl, rfl⟩ := hts
        simp only [strKinds, Bool.and_eq_true, beq_iff_eq] at hk
        obtain ⟨⟨k1, k2⟩, k3⟩ := hk
        obtain ⟨f1, f2⟩ := h
        have hko : (outTok t).kind = .stringOpen := k1
        have ho : openAfter st (outTok t) = outTok t :: st := by
          unfold openAfter
          rw [hko]
          rfl
        have hcode : openString st = none := by
          refine Fine.code f1 ?_ ?_ <;> rw [hko] <;> decide
        have hw : Word (outTok t) := by
          rcases Fine.lexeme hcode f1 with h | ⟨h, -⟩
          · exact h
          · rw [hko] at h; cases h
        rw [ho] at f2
        refine ⟨⟨by rw [k1]; decide, hw⟩, ?_⟩
        cases c with
        | none =>
          simp only [Option.toList_none, List.nil_append, List.map_cons, Fines] at f2
          exact ⟨(fun t ht => by cases ht), k3, Fine.inString hko f2.1⟩
        | some c =>
          simp only [Option.all_some, beq_iff_eq] at k2
          simp only [Option.toList_some, List.cons_append, List.nil_append, List.map_cons, Fines] at f2
          obtain ⟨f2, f3, -⟩ := f2
          have ho' : openAfter (outTok t :: st) (outTok c) = outTok t :: st := by
            unfold openAfter
            rw [show (outTok c).kind = .stringContent from k2]
            rfl
          rw [ho'] at f3
          refine ⟨?_, k3, Fine.inString hko f3⟩
          intro u hu
          cases hu
          exact ⟨k2, Fine.inString hko f2⟩

end Verif.Format
