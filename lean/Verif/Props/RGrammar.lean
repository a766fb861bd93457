import Verif.Model.RGrammar
import Verif.Model.RText
import Verif.Props.Codegen
import Verif.Lemmas.Factory

/-!
# C82 for air: the factory is the one of the grammar
-/

namespace Verif.Ungrammar

open Verif.Syntax (Slot slotTests nodeSlots isNodeKind fillSlots fillSeparated)

/-- What the generator makes of r.ungram. -/
def rAst : List (Name × Def) :=
  [("RBogus".toList, .bogus),
   ("RBogusValue".toList, .bogus),
   ("RBogusExpression".toList, .bogus),
   ("RRoot".toList, .node [.token "bom".toList ["UNICODE_BOM".toList] true false,
     .node "expressions".toList "RExpressionList".toList false false,
     .token "eof".toList ["EOF".toList] false false] false),
   ("RUnaryExpression".toList, .node [.token "operator".toList ["+".toList, "-".toList, "~".toList, "!".toList,
     "?".toList] false false, .node "argument".toList "AnyRExpression".toList false false] false),
   ("RBinaryExpression".toList, .node [.node "left".toList "AnyRExpression".toList false false,
     .token "operator".toList ["?".toList, ":".toList, "~".toList, "<-".toList, "<<-".toList, ":=".toList, "->".toList,
     "->>".toList, "=".toList, "|".toList, "&".toList, "||".toList, "&&".toList, "<".toList, "<=".toList, ">".toList,
     ">=".toList, "==".toList, "!=".toList, "+".toList, "-".toList, "*".toList, "/".toList, "^".toList, "**".toList,
     "|>".toList, "special".toList] false false, .node "right".toList "AnyRExpression".toList false false] false),
   ("RExtractExpression".toList, .node [.node "left".toList "AnyRExpression".toList false false,
     .token "operator".toList ["$".toList, "@".toList] false false,
     .node "right".toList "AnyRSelector".toList false false] false),
   ("RNamespaceExpression".toList, .node [.node "left".toList "AnyRSelector".toList false false,
     .token "operator".toList ["::".toList, ":::".toList] false false,
     .node "right".toList "AnyRSelector".toList false false] false),
   ("AnyRSelector".toList, .union ["RIdentifier".toList, "RStringValue".toList, "RDots".toList, "RDotDotI".toList]),
   ("RFunctionDefinition".toList, .node [.token "name".toList ["function".toList, "\\".toList] false false,
     .node "parameters".toList "RParameters".toList false false,
     .node "body".toList "AnyRExpression".toList false false] false),
   ("RParameters".toList, .node [.token "(".toList ["(".toList] false false,
     .node "items".toList "RParameterList".toList false false, .token ")".toList [")".toList] false false] false),
   ("RParameterList".toList, .list "RParameter".toList (some (",".toList, false))),
   ("RParameter".toList, .node [.node "name".toList "AnyRParameterName".toList false false,
     .node "default".toList "RParameterDefault".toList true false] false),
   ("RParameterDefault".toList, .node [.token "=".toList ["=".toList] false false,
     .node "value".toList "AnyRExpression".toList false false] false),
   ("AnyRParameterName".toList, .union ["RIdentifier".toList, "RDots".toList, "RDotDotI".toList]),
   ("RIfStatement".toList, .node [.token "if".toList ["if".toList] false false, .token "(".toList ["(".toList] false false,
     .node "condition".toList "AnyRExpression".toList false false, .token ")".toList [")".toList] false false,
     .node "consequence".toList "AnyRExpression".toList false false,
     .node "else_clause".toList "RElseClause".toList true false] false),
   ("RElseClause".toList, .node [.token "else".toList ["else".toList] false false,
     .node "alternative".toList "AnyRExpression".toList false false] false),
   ("RForStatement".toList, .node [.token "for".toList ["for".toList] false false,
     .token "(".toList ["(".toList] false false, .node "variable".toList "RIdentifier".toList false false,
     .token "in".toList ["in".toList] false false, .node "sequence".toList "AnyRExpression".toList false false,
     .token ")".toList [")".toList] false false, .node "body".toList "AnyRExpression".toList false false] false),
   ("RWhileStatement".toList, .node [.token "while".toList ["while".toList] false false,
     .token "(".toList ["(".toList] false false, .node "condition".toList "AnyRExpression".toList false false,
     .token ")".toList [")".toList] false false, .node "body".toList "AnyRExpression".toList false false] false),
   ("RRepeatStatement".toList, .node [.token "repeat".toList ["repeat".toList] false false,
     .node "body".toList "AnyRExpression".toList false false] false),
   ("RBracedExpressions".toList, .node [.token "{".toList ["{".toList] false false,
     .node "expressions".toList "RExpressionList".toList false false, .token "}".toList ["}".toList] false false] false),
   ("RParenthesizedExpression".toList, .node [.token "(".toList ["(".toList] false false,
     .node "body".toList "AnyRExpression".toList false false, .token ")".toList [")".toList] false false] false),
   ("RCall".toList, .node [.node "function".toList "AnyRExpression".toList false false,
     .node "arguments".toList "RCallArguments".toList false false] false),
   ("RCallArguments".toList, .node [.token "(".toList ["(".toList] false false,
     .node "items".toList "RArgumentList".toList false false, .token ")".toList [")".toList] false false] false),
   ("RSubset".toList, .node [.node "function".toList "AnyRExpression".toList false false,
     .node "arguments".toList "RSubsetArguments".toList false false] false),
   ("RSubsetArguments".toList, .node [.token "[".toList ["[".toList] false false,
     .node "items".toList "RArgumentList".toList false false, .token "]".toList ["]".toList] false false] false),
   ("RSubset2".toList, .node [.node "function".toList "AnyRExpression".toList false false,
     .node "arguments".toList "RSubset2Arguments".toList false false] false),
   ("RSubset2Arguments".toList, .node [.token "[[".toList ["[[".toList] false false,
     .node "items".toList "RArgumentList".toList false false, .token "]]".toList ["]]".toList] false false] false),
   ("RArgumentList".toList, .list "RArgument".toList (some (",".toList, false))),
   ("RArgument".toList, .node [.node "name_clause".toList "RArgumentNameClause".toList true false,
     .node "value".toList "AnyRExpression".toList true false] false),
   ("RArgumentNameClause".toList, .node [.node "name".toList "AnyRArgumentName".toList false false,
     .token "=".toList ["=".toList] false false] false),
   ("AnyRArgumentName".toList, .union ["RIdentifier".toList, "RStringValue".toList, "RDots".toList, "RDotDotI".toList,
     "RNullExpression".toList]),
   ("RExpressionList".toList, .list "AnyRExpression".toList none),
   ("AnyRExpression".toList, .union ["AnyRValue".toList, "RIdentifier".toList, "RUnaryExpression".toList,
     "RBinaryExpression".toList, "RExtractExpression".toList, "RNamespaceExpression".toList, "RFunctionDefinition".toList,
     "RIfStatement".toList, "RForStatement".toList, "RWhileStatement".toList, "RRepeatStatement".toList,
     "RBracedExpressions".toList, "RParenthesizedExpression".toList, "RCall".toList, "RSubset".toList, "RSubset2".toList,
     "RNextExpression".toList, "RBreakExpression".toList, "RTrueExpression".toList, "RFalseExpression".toList,
     "RNullExpression".toList, "RInfExpression".toList, "RNanExpression".toList, "RNaExpression".toList, "RDots".toList,
     "RDotDotI".toList, "RBogusExpression".toList]),
   ("AnyRValue".toList, .union ["RIntegerValue".toList, "RDoubleValue".toList, "RComplexValue".toList,
     "RStringValue".toList, "RBogusValue".toList]),
   ("RIntegerValue".toList, .node [.token "value".toList ["r_integer_literal".toList] false false] false),
   ("RDoubleValue".toList, .node [.token "value".toList ["r_double_literal".toList] false false] false),
   ("RComplexValue".toList, .node [.token "value".toList ["r_complex_literal".toList] false false] false),
   ("RStringValue".toList, .node [.token "open".toList ["string_open".toList] false false,
     .token "content".toList ["string_content".toList] true false,
     .token "close".toList ["string_close".toList] false false] false),
   ("RNextExpression".toList, .node [.token "next".toList ["next".toList] false false] false),
   ("RBreakExpression".toList, .node [.token "break".toList ["break".toList] false false] false),
   ("RTrueExpression".toList, .node [.token "true".toList ["true".toList] false false] false),
   ("RFalseExpression".toList, .node [.token "false".toList ["false".toList] false false] false),
   ("RNullExpression".toList, .node [.token "null".toList ["null".toList] false false] false),
   ("RInfExpression".toList, .node [.token "inf".toList ["inf".toList] false false] false),
   ("RNanExpression".toList, .node [.token "nan".toList ["nan".toList] false false] false),
   ("RNaExpression".toList, .node [.token "value".toList ["na_logical".toList, "na_integer".toList, "na_double".toList,
     "na_complex".toList, "na_character".toList] false false] false),
   ("RDots".toList, .node [.token "value".toList ["...".toList] false false] false),
   ("RDotDotI".toList, .node [.token "value".toList ["dotdoti".toList] false false] false),
   ("RIdentifier".toList, .node [.token "name".toList ["ident".toList] false false] false)]

theorem rAst_eq : makeAst rUngram = some rAst := by decide +kernel

/-- All kinds. -/
def allKinds : List Syntax.Kind :=
  [.tombstone, .eof, .unicodeBom, .semicolon, .comma, .lCurly, .rCurly, .lBrack, .rBrack, .lBrack2, .rBrack2,
   .lParen, .rParen, .wat, .tilde, .assign, .superAssign, .walrus, .assignRight, .superAssignRight, .equal, .orOp,
   .andOp, .or2, .and2, .lessThan, .lessThanOrEqualTo, .greaterThan, .greaterThanOrEqualTo, .equal2, .notEqual,
   .plus, .minus, .multiply, .divide, .exponentiate, .exponentiate2, .pipe, .colon, .colon2, .colon3, .dollar,
   .atSign, .bang, .dots, .backslash, .functionKw, .forKw, .inKw, .whileKw, .repeatKw, .ifKw, .elseKw, .nextKw,
   .breakKw, .trueKw, .falseKw, .nullKw, .infKw, .nanKw, .naLogicalKw, .naIntegerKw, .naDoubleKw, .naComplexKw,
   .naCharacterKw, .rIntegerLiteral, .rDoubleLiteral, .rComplexLiteral, .newline, .whitespace, .ident, .comment,
   .dotdoti, .special, .stringOpen, .stringContent, .stringClose, .rRoot, .rIdentifier, .rDots, .rDotDotI,
   .rUnaryExpression, .rBinaryExpression, .rExtractExpression, .rNamespaceExpression, .rFunctionDefinition,
   .rParameters, .rParameterList, .rParameter, .rParameterDefault, .rIfStatement, .rElseClause, .rForStatement,
   .rWhileStatement, .rRepeatStatement, .rBracedExpressions, .rParenthesizedExpression, .rCall, .rCallArguments,
   .rSubset, .rSubsetArguments, .rSubset2, .rSubset2Arguments, .rArgumentList, .rArgument, .rArgumentNameClause,
   .rExpressionList, .rIntegerValue, .rDoubleValue, .rComplexValue, .rStringValue, .rNextExpression,
   .rBreakExpression, .rTrueExpression, .rFalseExpression, .rNullExpression, .rInfExpression, .rNanExpression,
   .rNaExpression, .rBogus, .rBogusValue, .rBogusExpression, .last]

theorem mem_allKinds (k : Syntax.Kind) : k ∈ allKinds := by cases k <;> decide

/-- The name of a kind of nodes. -/
def nameOf (k : Syntax.Kind) : Name :=
  match elemOf k with
  | .node n => n
  | .token t => t

/-- What is in a slot. -/
def elem? (s : Slot) : Option Elem := s.kind?.map elemOf

/-- Tests that agree on all kinds. -/
def agree (p : Syntax.Kind → Bool) (q : Elem → Bool) : Bool := allKinds.all fun k => p k == q (elemOf k)

theorem agree_apply {p : Syntax.Kind → Bool} {q : Elem → Bool} (h : agree p q = true) (k : Syntax.Kind) : q (elemOf k) = p k := by
  have := List.all_eq_true.1 h k (mem_allKinds k)
  simpa using (beq_iff_eq.1 this).symm

/-- The same for lists of tests. -/
def agreeAll : List (Syntax.Kind → Bool) → List (Elem → Bool) → Bool
  | [], [] => true
  | p :: ps, q :: qs => agree p q && agreeAll ps qs
  | _, _ => false

theorem fill_agrees : ∀ (ps : List (Syntax.Kind → Bool)) (qs : List (Elem → Bool)) (cs : List Slot), agreeAll ps qs = true →
    (∀ c ∈ cs, c.isEmpty = false) → (fillSlots ps cs).map (·.map elem?) = fill qs (cs.filterMap elem?)
  | [], [], [], _, _ => rfl
  | [], [], c :: cs, _, hc => by
    have := hc c (by simp)
    cases c with
    | empty => cases this
    | token t => simp [elem?, Slot.kind?, fillSlots, fill]
    | node k ss => simp [elem?, Slot.kind?, fillSlots, fill]
  | [], _ :: _, _, h, _ => by cases h
  | _ :: _, [], _, h, _ => by cases h
  | p :: ps, q :: qs, [], h, hc => by
    simp only [agreeAll, Bool.and_eq_true] at h
    have ih := fill_agrees ps qs [] h.2 hc
    simp only [List.filterMap_nil] at ih ⊢
    rw [fillSlots, fill, ← ih]
    cases fillSlots ps [] <;> simp [elem?, Slot.kind?]
  | p :: ps, q :: qs, c :: cs, h, hc => by
    simp only [agreeAll, Bool.and_eq_true] at h
    obtain ⟨k, hk⟩ : ∃ k, c.kind? = some k := by
      have := hc c (by simp)
      cases c with
      | empty => cases this
      | token t => exact ⟨_, rfl⟩
      | node k ss => exact ⟨_, rfl⟩
    have he : elem? c = some (elemOf k) := by rw [elem?, hk]; rfl
    have hq := agree_apply h.1 k
    rw [fillSlots, List.filterMap_cons, he]
    simp only
    rw [fill, hq, hk]
    simp only [Option.any_some]
    by_cases hp : p k = true
    · rw [if_pos hp, if_pos hp, ← fill_agrees ps qs cs h.2 fun c h => hc c (by simp [h])]
      cases fillSlots ps cs <;> simp [he]
    · rw [if_neg hp, if_neg hp]
      have ih := fill_agrees ps qs (c :: cs) h.2 hc
      rw [List.filterMap_cons, he] at ih
      simp only at ih
      rw [← ih]
      cases fillSlots ps (c :: cs) <;> simp [elem?, Slot.kind?]

theorem empty_elem : elem? .empty = none := rfl

theorem separated_agrees {p : Syntax.Kind → Bool} {q : Elem → Bool} {sep : Syntax.Kind} {s : Name} (h : agree p q = true)
    (hs : agree (· == sep) (· = .token s) = true) : ∀ (cs : List Slot) (due first : Bool), (∀ c ∈ cs, c.isEmpty = false) →
    (fillSeparated p sep due first cs).map (·.map elem?) = separated q s false due first (cs.filterMap elem?) := by
  intro cs
  induction cs with
  | nil =>
    intro due first _
    cases due <;> cases first <;> simp [fillSeparated, separated, elem?, Slot.kind?]
  | cons c cs ih =>
    intro due first hc
    obtain ⟨k, hk⟩ : ∃ k, c.kind? = some k := by
      have := hc c (by simp)
      cases c with
      | empty => cases this
      | token t => exact ⟨_, rfl⟩
      | node k ss => exact ⟨_, rfl⟩
    have he : elem? c = some (elemOf k) := by rw [elem?, hk]; rfl
    have hq := agree_apply h k
    have hk' : (elemOf k = .token s) ↔ k = sep := by
      have := agree_apply hs k
      rw [Bool.eq_iff_iff] at this
      simpa using this
    have ih' := fun d => ih d false fun c h => hc c (by simp [h])
    rw [List.filterMap_cons, he]
    cases due
    · rw [fillSeparated, hk]
      simp only
      rw [separated, hq]
      by_cases h1 : k = sep
      · rw [if_pos (by simp [h1]), if_pos (hk'.2 h1), ← ih']
        cases fillSeparated p sep true false cs <;> simp [he]
      · rw [if_neg (by simp [h1]), if_neg (fun h => h1 (hk'.1 h))]
        by_cases h2 : p k = true
        · rw [if_pos (by simp [h2]), if_pos h2, ← ih']
          cases fillSeparated p sep false false cs <;> simp [he, empty_elem]
        · rw [if_neg (by simp [h2]), if_neg h2]
          rfl
    · rw [fillSeparated, hk]
      simp only
      rw [separated, hq]
      by_cases h2 : p k = true
      · rw [if_pos (by simp [h2]), if_pos h2, ← ih']
        cases fillSeparated p sep false false cs <;> simp [he]
      · rw [if_neg (by simp [h2]), if_neg h2]
        by_cases h1 : k = sep
        · rw [if_pos (by simp [h1]), if_pos (hk'.2 h1), ← ih']
          cases fillSeparated p sep true false cs <;> simp [he, empty_elem]
        · rw [if_neg (by simp [h1]), if_neg (fun h => h1 (hk'.1 h))]
          rfl

/-- For one kind: what is in the slots of the factory of air is what the generator lets in. -/
def sameDef (k : Syntax.Kind) : Bool :=
  match k with
  | .rArgumentList => rAst.lookup (nameOf k) = some (.list "RArgument".toList (some (",".toList, false)))
  | .rParameterList => rAst.lookup (nameOf k) = some (.list "RParameter".toList (some (",".toList, false)))
  | .rExpressionList => rAst.lookup (nameOf k) = some (.list "AnyRExpression".toList none)
  | .rBogus | .rBogusExpression | .rBogusValue => rAst.lookup (nameOf k) = some .bogus
  | k =>
    match slotTests k, rAst.lookup (nameOf k) with
    | some ps, some (.node fs false) => agreeAll ps (fs.map (Field.test rAst 3))
    | some _, _ => false
    | none, _ => true

theorem sameDef_all : allKinds.all sameDef = true := by decide +kernel

theorem same (k : Syntax.Kind) : sameDef k = true := List.all_eq_true.1 sameDef_all k (mem_allKinds k)

theorem comma_agrees : agree (· == .comma) (· = .token ",".toList) = true := by decide +kernel

theorem argument_agrees : agree (· == .rArgument) (canCast rAst 3 "RArgument".toList) = true := by decide +kernel

theorem parameter_agrees : agree (· == .rParameter) (canCast rAst 3 "RParameter".toList) = true := by decide +kernel

theorem expression_agrees : agree Syntax.isExpressionKind (canCast rAst 3 "AnyRExpression".toList) = true := by decide +kernel

theorem elems_all {cs : List Slot} (hc : ∀ c ∈ cs, c.isEmpty = false) {p : Syntax.Kind → Bool} {q : Elem → Bool} (h : agree p q = true) :
    cs.all (fun c => c.kind?.any p) = (cs.filterMap elem?).all q ∧ cs.map elem? = (cs.filterMap elem?).map some := by
  induction cs with
  | nil => exact ⟨rfl, rfl⟩
  | cons c cs ih =>
    obtain ⟨k, hk⟩ : ∃ k, c.kind? = some k := by
      have := hc c (by simp)
      cases c with
      | empty => cases this
      | token t => exact ⟨_, rfl⟩
      | node k ss => exact ⟨_, rfl⟩
    have he : elem? c = some (elemOf k) := by rw [elem?, hk]; rfl
    obtain ⟨h1, h2⟩ := ih fun c h => hc c (by simp [h])
    rw [List.all_cons, List.map_cons, List.filterMap_cons, he]
    simp only [List.all_cons, List.map_cons, h1, h2, hk, Option.any_some, agree_apply h k, and_self]

theorem air_slots (k : Syntax.Kind) (hk : isNodeKind k = true) (cs : List Slot) (hc : ∀ c ∈ cs, c.isEmpty = false) :
    (nodeSlots k cs).map (·.map elem?) = makeSyntax rAst 3 (nameOf k) (cs.filterMap elem?) := by
  have node : ∀ {ps}, slotTests k = some ps → (match slotTests k, rAst.lookup (nameOf k) with
      | some ps, some (.node fs false) => agreeAll ps (fs.map (Field.test rAst 3))
      | some _, _ => false
      | none, _ => true) = true →
      ((slotTests k).bind fun ps => fillSlots ps cs).map (·.map elem?) = makeSyntax rAst 3 (nameOf k) (cs.filterMap elem?) := by
    intro ps h1 h2
    rw [h1] at h2 ⊢
    rw [makeSyntax]
    cases h3 : rAst.lookup (nameOf k) with
    | none => rw [h3] at h2; cases h2
    | some d =>
      rw [h3] at h2
      cases d with
      | node fs b =>
        cases b
        · simp only at h2 ⊢
          exact fill_agrees ps _ cs h2 hc
        · cases h2
      | union _ => cases h2
      | bogus => cases h2
      | list _ _ => cases h2
  have hs := same k
  have rest : (slotTests k).isSome = true → nodeSlots k cs = ((slotTests k).bind fun ps => fillSlots ps cs) →
      sameDef k = (match slotTests k, rAst.lookup (nameOf k) with
      | some ps, some (.node fs false) => agreeAll ps (fs.map (Field.test rAst 3))
      | some _, _ => false
      | none, _ => true) → (nodeSlots k cs).map (·.map elem?) = makeSyntax rAst 3 (nameOf k) (cs.filterMap elem?) := by
    intro h1 h2 h3
    obtain ⟨ps, h4⟩ := Option.isSome_iff_exists.1 h1
    rw [h2]
    exact node h4 (h3 ▸ hs)
  by_cases h1 : k = .rArgumentList
  · subst h1
    have h2 : rAst.lookup (nameOf .rArgumentList) = some (.list "RArgument".toList (some (",".toList, false))) := of_decide_eq_true hs
    rw [makeSyntax, h2]
    exact separated_agrees argument_agrees comma_agrees cs true true hc
  by_cases h2 : k = .rParameterList
  · subst h2
    have h2 : rAst.lookup (nameOf .rParameterList) = some (.list "RParameter".toList (some (",".toList, false))) := of_decide_eq_true hs
    rw [makeSyntax, h2]
    exact separated_agrees parameter_agrees comma_agrees cs true true hc
  by_cases h3 : k = .rExpressionList
  · subst h3
    have h2 : rAst.lookup (nameOf .rExpressionList) = some (.list "AnyRExpression".toList none) := of_decide_eq_true hs
    obtain ⟨h3, h4⟩ := elems_all hc expression_agrees
    rw [makeSyntax, h2]
    simp only [nodeSlots, h3]
    split
    · rw [Option.map_some, h4]
    · rfl
  by_cases h4 : k = .rBogus ∨ k = .rBogusExpression ∨ k = .rBogusValue
  · have h2 : rAst.lookup (nameOf k) = some .bogus := by
      rcases h4 with rfl | rfl | rfl <;> exact of_decide_eq_true hs
    have h5 : nodeSlots k cs = some cs := by rcases h4 with rfl | rfl | rfl <;> rfl
    rw [makeSyntax, h2, h5, Option.map_some, (elems_all hc comma_agrees).2]
  · have h5 : ¬(k = .rBogus) := fun h => h4 (.inl h)
    have h6 : ¬(k = .rBogusExpression) := fun h => h4 (.inr (.inl h))
    have h7 : ¬(k = .rBogusValue) := fun h => h4 (.inr (.inr h))
    apply rest
    · unfold isNodeKind at hk
      split at hk <;> first | contradiction | exact hk
    · unfold nodeSlots
      split <;> first | contradiction | rfl
    · unfold sameDef
      split <;> first | contradiction | rfl

/-- **C82.** The factory of air is the one that the generator makes of r.ungram: for every kind of node and all children, what it
puts into which slot, and when the node is bogus. -/
theorem C82_air : ∃ ast, makeAst rUngram = some ast ∧ ∀ k, isNodeKind k = true → ∀ cs : List Slot, (∀ c ∈ cs, c.isEmpty = false) →
    (nodeSlots k cs).map (·.map elem?) = makeSyntax ast 3 (nameOf k) (cs.filterMap elem?) :=
  ⟨rAst, rAst_eq, air_slots⟩

/-! ## The grammar of R -/

theorem r_nodup : (rUngram.map Prod.fst).Nodup := by decide +kernel

/-- How deep the unions of the grammar are nested. -/
def rRank (n : Name) : Nat :=
  if n = "AnyRExpression".toList then 2
  else if n ∈ ["AnyRValue".toList, "AnyRSelector".toList, "AnyRArgumentName".toList, "AnyRParameterName".toList] then 1
  else 0

/-- The unions of the grammar list only what has less rank. -/
def rankedB (g : Gram) (rank : Name → Nat) : Bool :=
  g.all fun (n, r) =>
    match r with
    | .alt rs => rs.toList.all fun a => match a with | .node m => decide (rank m < rank n) | _ => true
    | _ => true

theorem r_ranked : Ranked rUngram 3 := by
  refine ⟨rRank, fun n => by unfold rRank; split; omega; split <;> omega, fun n rs m h _ hm => ?_⟩
  have key : rankedB rUngram rRank = true := by decide +kernel
  have := List.all_eq_true.1 (List.all_eq_true.1 key _ h) _ hm
  simpa using this

theorem agrees_belongs {p : Syntax.Kind → Bool} {n : Name} (h : agree p (canCast rAst 3 n) = true) (k : Syntax.Kind) :
    p k = true ↔ Belongs rUngram n (elemOf k) := by
  rw [← C82_casts rUngram rAst 3 r_nodup rAst_eq r_ranked, agree_apply h]

/-- **C82.** The classes of kinds of nodes that air knows are those of the grammar. -/
theorem C82_classes (k : Syntax.Kind) :
    (Syntax.isExpressionKind k = true ↔ Belongs rUngram "AnyRExpression".toList (elemOf k)) ∧
    (Syntax.isValueKind k = true ↔ Belongs rUngram "AnyRValue".toList (elemOf k)) ∧
    (Syntax.isSelectorKind k = true ↔ Belongs rUngram "AnyRSelector".toList (elemOf k)) ∧
    (Syntax.isArgumentNameKind k = true ↔ Belongs rUngram "AnyRArgumentName".toList (elemOf k)) ∧
    (Syntax.isParameterNameKind k = true ↔ Belongs rUngram "AnyRParameterName".toList (elemOf k)) :=
  ⟨agrees_belongs expression_agrees k, agrees_belongs (by decide +kernel) k, agrees_belongs (by decide +kernel) k,
    agrees_belongs (by decide +kernel) k, agrees_belongs (by decide +kernel) k⟩

mutual
/-- `Rule.Plain`, computed. -/
def Rule.plainB : Rule Name → Bool
  | .labeled _ (.alt rs) => rs.tokensB
  | .labeled _ (.opt (.alt rs)) => rs.tokensB
  | .labeled _ r => r.plainB
  | .node _ => true
  | .token _ => true
  | .seq rs => rs.plainB
  | .opt r => r.plainB
  | _ => false
def Rules.plainB : Rules Name → Bool
  | .nil => true
  | .cons r rs => r.plainB && rs.plainB
/-- All are tokens. -/
def Rules.tokensB : Rules Name → Bool
  | .nil => true
  | .cons (.token t) rs => t ≠ [] && rs.tokensB
  | _ => false
end

theorem tokensB_mem : ∀ {rs : Rules Name}, rs.tokensB = true → ∀ a ∈ rs.toList, ∃ t, a = .token t ∧ t ≠ []
  | .nil, _, _, h => by simp [Rules.toList] at h
  | .cons r rs, h, a, ha => by
    cases r with
    | token t =>
      simp only [Rules.tokensB, Bool.and_eq_true, decide_eq_true_eq] at h
      simp only [Rules.toList, List.mem_cons] at ha
      rcases ha with rfl | ha
      · exact ⟨t, rfl, h.1⟩
      · exact tokensB_mem h.2 a ha
    | _ => simp [Rules.tokensB] at h

mutual
theorem plain_of : ∀ (r : Rule Name), r.plainB = true → r.Plain
  | .labeled _ (.alt rs), h => by
    simp only [Rule.plainB] at h
    simp only [Rule.Plain]
    exact tokensB_mem h
  | .labeled _ (.opt (.alt rs)), h => by
    simp only [Rule.plainB] at h
    simp only [Rule.Plain]
    exact tokensB_mem h
  | .labeled _ (.opt (.node n)), h => by simp [Rule.Plain]
  | .labeled _ (.opt (.token n)), h => by simp [Rule.Plain]
  | .labeled _ (.opt (.labeled l r)), h => by
    have := plain_of (.labeled l r) (by simpa [Rule.plainB] using h)
    simpa [Rule.Plain] using this
  | .labeled _ (.opt (.seq rs)), h => by
    have := plain_of (.seq rs) (by simpa [Rule.plainB] using h)
    simpa [Rule.Plain] using this
  | .labeled _ (.opt (.opt r)), h => by
    have := plain_of (.opt r) (by simpa [Rule.plainB] using h)
    simpa [Rule.Plain] using this
  | .labeled _ (.opt (.rep r)), h => by simp [Rule.plainB] at h
  | .labeled _ (.node n), h => by simp [Rule.Plain]
  | .labeled _ (.token n), h => by simp [Rule.Plain]
  | .labeled _ (.labeled l r), h => by
    have := plain_of (.labeled l r) (by simpa [Rule.plainB] using h)
    simpa [Rule.Plain] using this
  | .labeled _ (.seq rs), h => by
    have := plain_of (.seq rs) (by simpa [Rule.plainB] using h)
    simpa [Rule.Plain] using this
  | .labeled _ (.rep r), h => by simp [Rule.plainB] at h
  | .node _, _ => by simp [Rule.Plain]
  | .token _, _ => by simp [Rule.Plain]
  | .seq rs, h => by
    simp only [Rule.Plain]
    exact plains_of rs (by simpa [Rule.plainB] using h)
  | .opt r, h => by
    simp only [Rule.Plain]
    exact plain_of r (by simpa [Rule.plainB] using h)
  | .alt _, h => by simp [Rule.plainB] at h
  | .rep _, h => by simp [Rule.plainB] at h
theorem plains_of : ∀ (rs : Rules Name), rs.plainB = true → rs.Plain
  | .nil, _ => by simp [Rules.Plain]
  | .cons r rs, h => by
    simp only [Rules.plainB, Bool.and_eq_true] at h
    simp only [Rules.Plain]
    exact ⟨plain_of r h.1, plains_of rs h.2⟩
end

/-- All that fits a field of tokens, or of one kind of nodes. -/
def samples (ast : List (Name × Def)) : Field → Option (List Elem)
  | .token _ ks _ _ => some (ks.map .token)
  | .node _ ty _ _ =>
    match ast.lookup ty with
    | some (.union _) => none
    | _ => some [.node ty]

theorem samples_mem {ast : List (Name × Def)} {d : Nat} {f : Field} {l : List Elem} (h : samples ast f = some l) {k : Elem}
    (hk : f.test ast d k = true) : k ∈ l := by
  cases f with
  | token n ks o u =>
    simp only [samples, Option.some.injEq] at h
    subst h
    simp only [Field.test] at hk
    cases k <;> simp_all
  | node n ty o u =>
    simp only [Field.test] at hk
    cases d with
    | zero => simp [canCast] at hk
    | succ d =>
      rw [canCast.eq_def] at hk
      simp only [samples] at h
      cases hl : ast.lookup ty with
      | none => simp [hl] at hk
      | some e => cases e <;> simp_all <;> simp [← h]

/-- `Clear`, computed. -/
def clearB (ast : List (Name × Def)) (d : Nat) : List Field → Bool
  | [] => true
  | f :: fs =>
    (!f.optional || match samples ast f with
      | some l => (reach fs).all fun q => l.all fun k => !q.test ast d k
      | none => (reach fs).isEmpty) && clearB ast d fs

theorem clear_of {ast : List (Name × Def)} {d : Nat} : ∀ {fs : List Field}, clearB ast d fs = true → Clear (Field.test ast d) fs
  | [], _ => trivial
  | f :: fs, h => by
    simp only [clearB, Bool.and_eq_true, Bool.or_eq_true, Bool.not_eq_true'] at h
    refine ⟨fun ho q hq k ⟨h1, h2⟩ => ?_, clear_of h.2⟩
    rcases h.1 with h3 | h3
    · rw [ho] at h3; cases h3
    · split at h3
      · rename_i l hl
        have := List.all_eq_true.1 (List.all_eq_true.1 h3 q hq) k (samples_mem hl h1)
        rw [h2] at this
        cases this
      · rw [List.isEmpty_iff.1 h3] at hq
        cases hq

/-- What has to hold of the grammar of R. -/
def fineB : Bool :=
  rUngram.all fun (_, r) =>
    match makeDef r with
    | some (.node _ true) => false
    | some (.node fs false) => r.plainB && clearB rAst 3 fs
    | _ => true

theorem r_fine : fineB = true := by decide +kernel

/-- The rule of the grammar for a kind of nodes. -/
theorem r_rule (k : Syntax.Kind) (hk : isNodeKind k = true) : ∃ r, (nameOf k, r) ∈ rUngram := by
  have key : (allKinds.all fun k => !isNodeKind k || (rUngram.lookup (nameOf k)).isSome) = true := by decide +kernel
  have := List.all_eq_true.1 key k (mem_allKinds k)
  rw [hk] at this
  simpa using this

/-- **C82.** Children as r.ungram describes them make a node of the kind, not a bogus one; all of them are in it, in order, and
a part that the grammar requires is there. -/
theorem C82_grammar (k : Syntax.Kind) (hk : isNodeKind k = true) (r : Rule Name) (hr : (nameOf k, r) ∈ rUngram) (cs : List Slot)
    (hc : ∀ c ∈ cs, c.isEmpty = false) (hl : Lang rUngram r (cs.filterMap elem?)) :
    ∃ slots, Syntax.makeSyntax k cs = some (.node k slots) ∧ slots.filter (fun s => !s.isEmpty) = cs ∧
      ∀ fs, makeDef r = some (.node fs false) → ∀ (i : Nat) (f : Field), fs[i]? = some f → f.optional = false →
        ∃ c e, slots[i]? = some c ∧ elem? c = some e ∧ f.test rAst 3 e = true := by
  have hfine := List.all_eq_true.1 r_fine _ hr
  have hs : nameOf k ≠ syntaxElement := by
    have key : (allKinds.all fun k => decide (nameOf k ≠ syntaxElement)) = true := by decide +kernel
    exact of_decide_eq_true (List.all_eq_true.1 key k (mem_allKinds k))
  have hu : ¬r.IsUnion := by
    rintro ⟨rs, rfl, hrs⟩
    have key : (allKinds.all fun k => !isNodeKind k || rUngram.all fun (n, r) => n ≠ nameOf k || match r with
      | .alt rs => rs.toList.any fun a => match a with | .node _ => false | .token t => t ≠ [';'] | _ => true
      | _ => true) = true := by decide +kernel
    have h1 := List.all_eq_true.1 key k (mem_allKinds k)
    rw [hk] at h1
    simp only [Bool.not_true, Bool.false_or] at h1
    have h2 := List.all_eq_true.1 h1 _ hr
    simp only [ne_eq, not_true_eq_false, decide_false, Bool.false_or, List.any_eq_true] at h2
    obtain ⟨a, ha, h3⟩ := h2
    rcases hrs a ha with ⟨m, rfl⟩ | rfl <;> simp at h3
  have ho : ∀ fs, makeDef r ≠ some (.node fs true) := by
    intro fs h
    simp only [h] at hfine
    cases hfine
  obtain ⟨es, h1, h2⟩ := C82_accepts rUngram rAst 3 r_nodup rAst_eq r_ranked (nameOf k) r hr hs hu ho _ hl
  have h3 := air_slots k hk cs hc
  rw [h1, Option.map_eq_some_iff] at h3
  obtain ⟨slots, h4, h5⟩ := h3
  refine ⟨slots, by rw [Syntax.makeSyntax, if_pos hk, h4], Syntax.nodeSlots_keeps hc h4, ?_⟩
  · intro fs hf i f hi hopt
    simp only [hf, Bool.and_eq_true] at hfine
    obtain ⟨es', h6, h7⟩ := C82_required_partial rUngram rAst 3 r_nodup rAst_eq r_ranked (nameOf k) r hr hs fs hf
      (plain_of r hfine.1) (clear_of hfine.2) _ hl
    rw [h1] at h6
    cases h6
    obtain ⟨e, h8, h9⟩ := h7 i f hi hopt
    rw [← h5, List.getElem?_map, Option.map_eq_some_iff] at h8
    obtain ⟨c, h10, h11⟩ := h8
    exact ⟨c, e, h10, h11, h9⟩

/-! ## The text of the grammar -/

mutual
theorem same_eq : ∀ (r r' : Rule Name), r.same r' = true → r = r'
  | .labeled l r, .labeled l' r', h => by
    simp only [Rule.same, Bool.and_eq_true, beq_iff_eq] at h
    rw [h.1, same_eq r r' h.2]
  | .node n, .node n', h => by simp only [Rule.same, beq_iff_eq] at h; rw [h]
  | .token n, .token n', h => by simp only [Rule.same, beq_iff_eq] at h; rw [h]
  | .seq rs, .seq rs', h => by rw [sames_eq rs rs' (by simpa [Rule.same] using h)]
  | .alt rs, .alt rs', h => by rw [sames_eq rs rs' (by simpa [Rule.same] using h)]
  | .unorderedSome rs, .unorderedSome rs', h => by rw [sames_eq rs rs' (by simpa [Rule.same] using h)]
  | .unorderedAll rs, .unorderedAll rs', h => by rw [sames_eq rs rs' (by simpa [Rule.same] using h)]
  | .opt r, .opt r', h => by rw [same_eq r r' (by simpa [Rule.same] using h)]
  | .rep r, .rep r', h => by rw [same_eq r r' (by simpa [Rule.same] using h)]
theorem sames_eq : ∀ (rs rs' : Rules Name), rs.same rs' = true → rs = rs'
  | .nil, .nil, _ => rfl
  | .cons r rs, .cons r' rs', h => by
    simp only [Rules.same, Bool.and_eq_true] at h
    rw [same_eq r r' h.1, sames_eq rs rs' h.2]
end

/-- The rules of a grammar are these. -/
def hasRules (g : Grammar) (d : Gram) : Bool :=
  g.nodes.length == d.length && d.all fun (n, r) => g.nodes.any fun (n', r') =>
    n == n' && ((r'.resolve (g.nodes.map Prod.fst) g.tokens).any r.same)

/-- **C82.** The grammar of R is what is written in r.ungram: reading that text gives these rules and no others. -/
theorem C82_source : ∃ g, fromStr rText = some g ∧ g.nodes.length = rUngram.length ∧
    ∀ d ∈ rUngram, ∃ r, (d.1, r) ∈ g.nodes ∧ r.resolve (g.nodes.map Prod.fst) g.tokens = some d.2 := by
  have h : (fromStr rText).any (fun g => hasRules g rUngram) = true := by decide +kernel
  cases hg : fromStr rText with
  | none => rw [hg] at h; cases h
  | some g =>
    rw [hg] at h
    simp only [Option.any_some, hasRules, Bool.and_eq_true, beq_iff_eq, List.all_eq_true, List.any_eq_true] at h
    refine ⟨g, rfl, h.1, fun d hd => ?_⟩
    obtain ⟨⟨n', r'⟩, h1, h2, h3⟩ := h.2 d hd
    simp only at h2 h3
    refine ⟨r', h2 ▸ h1, ?_⟩
    cases hr : r'.resolve (g.nodes.map Prod.fst) g.tokens with
    | none => rw [hr] at h3; cases h3
    | some r =>
      rw [hr] at h3
      rw [same_eq _ _ h3]

/-- `if (x) y` without `else`: the children are those of the grammar, so all is where the grammar says. -/
example (i l r : Syntax.Token) (hi : i.kind = .ifKw) (hl : l.kind = .lParen) (hr : r.kind = .rParen) (xs ys : List Slot) :
    ∃ slots, Syntax.makeSyntax .rIfStatement [.token i, .token l, .node .rIdentifier xs, .token r, .node .rCall ys] =
      some (.node .rIfStatement slots) ∧
      slots.filter (fun s => !s.isEmpty) = [.token i, .token l, .node .rIdentifier xs, .token r, .node .rCall ys] := by
  have hx : Belongs rUngram "AnyRExpression".toList (.node "RIdentifier".toList) := (C82_classes .rIdentifier).1.1 rfl
  have hy : Belongs rUngram "AnyRExpression".toList (.node "RCall".toList) := (C82_classes .rCall).1.1 rfl
  obtain ⟨slots, h1, h2, _⟩ := C82_grammar .rIfStatement rfl (.seq (rules [.token "if".toList, .token "(".toList,
      .labeled "condition".toList (.node "AnyRExpression".toList), .token ")".toList,
      .labeled "consequence".toList (.node "AnyRExpression".toList),
      .labeled "else_clause".toList (.opt (.node "RElseClause".toList))])) (by simp [rUngram, nameOf, elemOf, rules])
    [.token i, .token l, .node .rIdentifier xs, .token r, .node .rCall ys] (by simp [Slot.isEmpty]) (by
      simp only [List.filterMap_cons, List.filterMap_nil, elem?, Slot.kind?, hi, hl, hr, Option.map_some, elemOf, rules]
      exact .seq (.cons (cs := [_]) (.token (by decide)) (.cons (cs := [_]) (.token (by decide)) (.cons (cs := [_])
        (.labeled (.node hx)) (.cons (cs := [_]) (.token (by decide)) (.cons (cs := [_]) (.labeled (.node hy))
        (.cons (cs := []) (.labeled .absent) .nil)))))))
  exact ⟨slots, h1, h2⟩

end Verif.Ungrammar
