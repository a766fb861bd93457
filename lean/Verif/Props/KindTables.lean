import Verif.Model.KindTables
import Verif.Spec.Grammar
import Verif.Props.RGrammar

/-!
# Numbers and classes of kinds (C85), strength of operators (C86)
-/

namespace Verif.Syntax

open Verif.Ungrammar (allKinds mem_allKinds elemOf nameOf Elem rUngram makeDef)
open Verif.Parser (kindTexts)

theorem every {p : Kind → Bool} (h : allKinds.all p = true) (k : Kind) : p k = true := List.all_eq_true.1 h k (mem_allKinds k)

/-! ## Numbers -/

theorem order_all : (allKinds.all fun k => decide (kindOrder[k.number]? = some k)) = true := by decide +kernel

theorem order_at (k : Kind) : kindOrder[k.number]? = some k := of_decide_eq_true (every order_all k)

theorem order_nodup : kindOrder.Nodup := by decide +kernel

theorem number_last (k : Kind) : k.number ≤ Kind.number .last := by
  have : (allKinds.all fun k => decide (k.number ≤ Kind.number .last)) = true := by decide +kernel
  exact of_decide_eq_true (every this k)

/-- C85: a number gives a kind exactly if it is the number of this kind; all other numbers panic, and none is undefined behaviour. -/
theorem C85_numbers (n : Nat) : fromU16 n ≠ .undefined ∧ (∀ k, fromU16 n = .kind k ↔ k.number = n) ∧
    (fromU16 n = .panic ↔ ∀ k : Kind, k.number ≠ n) := by
  by_cases hn : n ≤ Kind.number .last
  · have hlen : n < kindOrder.length := by
      have : Kind.number .last < kindOrder.length := by decide +kernel
      omega
    have hk : (kindOrder[n]).number = n := by
      have := order_nodup.idxOf_getElem n hlen
      exact this
    have he : fromU16 n = .kind kindOrder[n] := by simp [fromU16, hn, List.getElem?_eq_getElem hlen]
    rw [he]
    refine ⟨by simp, fun k => ?_, by simpa using ⟨_, hk⟩⟩
    constructor
    · intro h
      cases h
      exact hk
    · rintro rfl
      have := order_at k
      rw [List.getElem?_eq_getElem hlen] at this
      rw [Option.some.inj this]
  · have he : fromU16 n = .panic := by simp [fromU16, hn]
    rw [he]
    refine ⟨by simp, fun k => ?_, by simp only [true_iff]; intro k h; exact hn (h ▸ number_last k)⟩
    constructor
    · intro h; cases h
    · intro h; exact absurd (h ▸ number_last k) hn

/-- C85: a kind is found again by its number. -/
theorem C85_roundtrip (k : Kind) : fromU16 k.number = .kind k := ((C85_numbers k.number).2.1 k).mpr rfl

/-- Numbers of a bracket, of a node, and of no kind. -/
example : Kind.number .lCurly = 5 ∧ fromU16 97 = .kind .rCall ∧ fromU16 123 = .panic := by decide +kernel

/-! ## Classes -/

/-- C85: pieces of trivia are made of kinds of trivia and of no others; the `unreachable!` is not reached. -/
theorem C85_trivia (k : Kind) : triviaPiece k ≠ none ∧ (∀ p, triviaPiece k = some (some p) →
    k.isTrivia = true ∧ ∀ l, triviaPiece l = some (some p) → l = k) ∧ (triviaPiece k = some none ↔ k.isTrivia = false) := by
  have h : (allKinds.all fun k => decide (triviaPiece k ≠ none) && decide (triviaPiece k = some none ↔ k.isTrivia = false) &&
      allKinds.all fun l => decide (triviaPiece k ≠ triviaPiece l ∨ triviaPiece k = some none ∨ l = k)) = true := by decide +kernel
  have hk := every h k
  simp only [Bool.and_eq_true, decide_eq_true_eq] at hk
  refine ⟨hk.1.1, fun p hp => ⟨?_, fun l hl => ?_⟩, hk.1.2⟩
  · cases ht : k.isTrivia
    · rw [hk.1.2.mpr ht] at hp; cases hp
    · rfl
  · have := of_decide_eq_true (every hk.2 l)
    rw [hp, hl] at this
    simpa using this

/-- C85: what is bogus is its own bogus version, and all bogus versions are bogus. -/
theorem C85_bogus (k : Kind) : k.toBogus.isBogus = true ∧ (k.isBogus = true ↔ k.toBogus = k) := by
  have h : (allKinds.all fun k => decide (k.toBogus.isBogus = true ∧ (k.isBogus = true ↔ k.toBogus = k))) = true := by decide +kernel
  exact of_decide_eq_true (every h k)

/-- C85: the bogus version of a value can stand for a value. That of an expression can stand for an expression only if
the expression is an operation or a value; others become `R_BOGUS`, which no place for expressions takes. -/
theorem C85_bogus_class_partial (k : Kind) :
    (isValueKind k = true → isValueKind k.toBogus = true) ∧
    (isExpressionKind k = true → (isExpressionKind k.toBogus = true ↔ isValueKind k = true ∨ k = .rUnaryExpression ∨
      k = .rBinaryExpression ∨ k = .rExtractExpression ∨ k = .rNamespaceExpression ∨ k = .rBogusExpression)) := by
  have h : (allKinds.all fun k => decide ((isValueKind k = true → isValueKind k.toBogus = true) ∧
    (isExpressionKind k = true → (isExpressionKind k.toBogus = true ↔ isValueKind k = true ∨ k = .rUnaryExpression ∨
      k = .rBinaryExpression ∨ k = .rExtractExpression ∨ k = .rNamespaceExpression ∨ k = .rBogusExpression)))) = true := by
    decide +kernel
  exact of_decide_eq_true (every h k)

/-- C85 (disagreement): a call is an expression, its bogus version is not. -/
theorem C85_bogus_call : isExpressionKind .rCall = true ∧ isExpressionKind (Kind.toBogus .rCall) = false := by decide

/-! ## Texts -/

theorem keyword_mem {s : String} {k : Kind} : fromKeyword s = some k ↔ (s, k) ∈ keywordTable := by
  constructor
  · intro h
    obtain ⟨l, r, he, _⟩ := List.lookup_eq_some_iff.mp h
    rw [he]; simp
  · intro h
    have hall : ∀ p ∈ keywordTable, fromKeyword p.1 = some p.2 := by decide +kernel
    exact hall _ h

/-- C85: a word is the keyword of a kind exactly if it is the text of the kind, and the kind is none of punctuation. -/
theorem C85_keywords (s : String) (k : Kind) :
    fromKeyword s = some k ↔ kindTexts.lookup k = some s ∧ k.isPunct = false ∧ k ≠ .rStringValue := by
  rw [keyword_mem]
  constructor
  · intro h
    have hall : ∀ p ∈ keywordTable, kindTexts.lookup p.2 = some p.1 ∧ p.2.isPunct = false ∧ p.2 ≠ .rStringValue := by decide +kernel
    exact hall _ h
  · rintro ⟨h, hp, hs⟩
    have hm : (k, s) ∈ kindTexts := by
      obtain ⟨l, r, he, _⟩ := List.lookup_eq_some_iff.mp h
      rw [he]; simp
    have hall : ∀ p ∈ kindTexts, p.1.isPunct = false → p.1 ≠ .rStringValue → (p.2, p.1) ∈ keywordTable := by decide +kernel
    exact hall _ hm hp hs

/-- C85: punctuation is what has a text without letters. -/
theorem C85_punct (k : Kind) : k.isPunct = true ↔ ∃ s, kindTexts.lookup k = some s ∧ ∀ c ∈ s.toList, c.isAlpha = false := by
  have h : (allKinds.all fun k => k.isPunct == (kindTexts.lookup k).any fun s => s.toList.all fun c => !c.isAlpha) = true := by
    decide +kernel
  rw [beq_iff_eq.1 (every h k)]
  cases kindTexts.lookup k <;> simp

/-- C85: the text of a kind is its name in the grammar of R, and different kinds have different names there. -/
theorem C85_grammar (k : Kind) :
    (∀ s, kindTexts.lookup k = some s → k ≠ .rStringValue → elemOf k = .token s.toList) ∧ ∀ l, elemOf k = elemOf l → k = l := by
  have h : (allKinds.all fun k => (k == .rStringValue || (kindTexts.lookup k).all fun s => decide (elemOf k = .token s.toList)) &&
      allKinds.all fun l => decide (elemOf k = elemOf l → k = l)) = true := by decide +kernel
  have hk := every h k
  simp only [Bool.and_eq_true, Bool.or_eq_true, beq_iff_eq] at hk
  refine ⟨fun s hs hn => ?_, fun l => of_decide_eq_true (every hk.2 l)⟩
  have := hk.1.resolve_left hn
  rw [hs] at this
  exact of_decide_eq_true this

/-- C85: lists are the kinds whose rule in the grammar of R is a list. -/
theorem C85_lists (k : Kind) : k.isList = true ↔
    ∃ r i s, (nameOf k, r) ∈ rUngram ∧ makeDef r = some (.list i s) := by
  have h : (allKinds.all fun k => k.isList == rUngram.any fun d => d.1 == nameOf k &&
      (match makeDef d.2 with | some (.list _ _) => true | _ => false)) = true := by decide +kernel
  rw [beq_iff_eq.1 (every h k)]
  simp only [List.any_eq_true, Bool.and_eq_true, beq_iff_eq]
  constructor
  · rintro ⟨⟨n, r⟩, hm, rfl, hd⟩
    split at hd
    · rename_i i s he
      exact ⟨r, i, s, hm, he⟩
    · cases hd
  · rintro ⟨r, i, s, hm, he⟩
    exact ⟨_, hm, rfl, by simp [he]⟩

/-- C85: literals are the tokens that R reads as numbers. -/
theorem C85_literals (k : Kind) : k.isLiteral = true ↔ ∃ v, Format.atomKind k = some v ∧ isValueKind v = true := by
  have h : (allKinds.all fun k => k.isLiteral == (Format.atomKind k).any isValueKind) = true := by decide +kernel
  rw [beq_iff_eq.1 (every h k)]
  cases Format.atomKind k <;> simp

/-! ## Strength of operators -/

/-- C86: only binary operators have a strength, and of two operators other than `=` the one is stronger exactly if R groups it so. -/
theorem C86_order_partial (k l : Kind) (p q : Precedence) (hk : binaryPrecedence k = some p) (hl : binaryPrecedence l = some q)
    (ek : k ≠ .equal) (el : l ≠ .equal) :
    ∃ a b, Format.binOp k = some a ∧ Format.binOp l = some b ∧ (p.number < q.number ↔ a.1 < b.1) := by
  have h : (allKinds.all fun k => allKinds.all fun l => match binaryPrecedence k, binaryPrecedence l with
      | some p, some q => k == .equal || l == .equal || (match Format.binOp k, Format.binOp l with
        | some a, some b => decide (p.number < q.number ↔ a.1 < b.1)
        | _, _ => false)
      | _, _ => true) = true := by decide +kernel
  have := every (every h k) l
  simp only [hk, hl, Bool.or_eq_true, beq_iff_eq, ek, el, false_or] at this
  cases ha : Format.binOp k with
  | none => simp [ha] at this
  | some a =>
    cases hb : Format.binOp l with
    | none => simp [ha, hb] at this
    | some b => exact ⟨a, b, rfl, rfl, by simpa [ha, hb] using this⟩

/-- C86 (disagreement): the only binary operator without a strength is `!=`. -/
theorem C86_missing (k : Kind) : isBinaryOperator k = true ∧ binaryPrecedence k = none ↔ k = .notEqual := by
  have h : (allKinds.all fun k => decide (isBinaryOperator k = true ∧ binaryPrecedence k = none ↔ k = .notEqual)) = true := by
    decide +kernel
  exact of_decide_eq_true (every h k)

/-- C86 (disagreement): `=` is stronger than `<-`, while R reads `a <- b = c` as `(a <- b) = c`. -/
theorem C86_equal : ∃ p q a b, binaryPrecedence .equal = some p ∧ binaryPrecedence .assign = some q ∧ q.number < p.number ∧
    Format.binOp .equal = some a ∧ Format.binOp .assign = some b ∧ a.1 < b.1 :=
  ⟨_, _, _, _, rfl, rfl, by decide, rfl, rfl, by decide⟩

/-- `+` and `*`. -/
example : binaryPrecedence .plus = some .additive ∧ binaryPrecedence .multiply = some .multiplicative ∧
    Precedence.number .additive < Precedence.number .multiplicative := by decide

end Verif.Syntax
