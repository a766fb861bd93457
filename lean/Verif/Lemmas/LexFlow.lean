import Verif.Lemmas.LexTrack

/-!
# Documents keep tokens apart
-/

namespace Verif.Format
open Verif.Syntax

/-! ## Documents -/

/-- The token directly before the current place ends before all bytes of the set. -/
def Before (B : Byte → Bool) (s : Option Tok) : Prop :=
  ∀ t, s = some t → holds t = false ∧ ∀ b, B b = true → StopsAt t b

def anyByte : Byte → Bool := fun _ => true
def noByte : Byte → Bool := fun _ => false
/-- `)`, `]`, `,`, `}`. -/
def close (b : Byte) : Bool := ([41, 93, 44, 125] : List Byte).contains b
/-- `(`. -/
def parenByte (b : Byte) : Bool := b == 40

theorem Before.none {B : Byte → Bool} : Before B none := fun t h => by cases h

theorem Before.noStr {B : Byte → Bool} {s : Option Tok} (h : Before B s) : NoStr s := by
  cases s with
  | none => trivial
  | some t => exact (h t rfl).1

theorem Before.weaken {B C : Byte → Bool} {s : Option Tok} (h : Before B s) (hc : ∀ b, C b = true → B b = true) :
    Before C s :=
  fun t ht => ⟨(h t ht).1, fun b hb => (h t ht).2 b (hc b hb)⟩

theorem Before.follows {B : Byte → Bool} {s : Option Tok} (h : Before B s) {u : Tok} (hu : FirstByte B u) :
    Follows s u := by
  cases s with
  | none => trivial
  | some t => exact .inr fun b r hb => (h t rfl).2 b (hu b r hb)

/-- After the elements. -/
def Runs (A : Byte → Bool) (es : List El) (B : Byte → Bool) : Prop :=
  ∀ s, Before A s → Glued s es ∧ Before B (glueEnd s es) ∧ ∀ e ∈ es, Plain e

/-- However the document is laid out, its tokens stay apart, if a token that ends before the bytes of `A`
comes before it; the last token ends before the bytes of `B`. -/
def Flow (A : Byte → Bool) (d : Doc) (B : Byte → Bool) : Prop :=
  ∀ ns m i es, Lays ns m i d es → Runs A es B

variable {A B C : Byte → Bool} {d d' : Doc}

theorem Flow.pre (h : Flow A d B) (hc : ∀ b, A b = true → C b = true) : Flow C d B :=
  fun ns m i es hl s hs => h ns m i es hl s (hs.weaken hc)

theorem Flow.post (h : Flow A d B) (hc : ∀ b, C b = true → B b = true) : Flow A d C := by
  intro ns m i es hl s hs
  obtain ⟨h1, h2, h3⟩ := h ns m i es hl s hs
  exact ⟨h1, h2.weaken hc, h3⟩

theorem Flow.every (h : Flow A d anyByte) : Flow A d B := h.post fun _ _ => rfl

theorem Flow.from (h : Flow noByte d B) : Flow A d B := h.pre fun _ h => by cases h

theorem Runs.append {x y : List El} (h : Runs A x B) (h' : Runs B y C) : Runs A (x ++ y) C := by
  intro s hs
  obtain ⟨h1, h2, h3⟩ := h s hs
  obtain ⟨g1, g2, g3⟩ := h' _ h2
  rw [glued_append, glueEnd_append]
  refine ⟨⟨h1, g1⟩, g2, ?_⟩
  intro e he
  rcases List.mem_append.1 he with he | he
  · exact h3 e he
  · exact g3 e he

theorem Runs.nil : Runs A [] A := fun s hs => ⟨trivial, hs, fun e he => by cases he⟩

theorem Flow.nil : Flow A .nil A := by
  intro ns m i es hl
  rw [show es = [] from hl]
  exact Runs.nil

theorem Flow.cat (h : Flow A d B) (h' : Flow B d' C) : Flow A (d ⊹ d') C := by
  intro ns m i es hl
  obtain ⟨x, y, rfl, h1, h2⟩ := hl
  exact (h ns m i x h1).append (h' ns m i y h2)

theorem runs_tok {t : Tok} (ht : FirstByte A t) (hs : holds t = false) (hb : ∀ b, B b = true → StopsAt t b) :
    Runs A [.tok t] B := by
  intro s h
  refine ⟨⟨h.follows ht, trivial⟩, ?_, ?_⟩
  · intro u hu
    cases hu
    exact ⟨hs, hb⟩
  · intro e he
    cases List.mem_singleton.1 he
    trivial

theorem Flow.tok {t : Tok} (ht : FirstByte A t) (hs : holds t = false) (hb : ∀ b, B b = true → StopsAt t b) :
    Flow A (.tok t) B := by
  intro ns m i es hl
  rw [show es = [.tok t] from hl]
  exact runs_tok ht hs hb

theorem runs_apart {e : El} (he : ∀ s es, NoStr s → Glued none es → Glued s (e :: es))
    (hg : ∀ s, glueEnd s [e] = none) (hp : Plain e) : Runs A [e] B := by
  intro s h
  refine ⟨he s [] h.noStr trivial, ?_, ?_⟩
  · rw [hg]; exact Before.none
  · intro e he
    cases List.mem_singleton.1 he
    exact hp

theorem runs_nl {b : Bool} {i : Nat} : Runs A [.nl b i] B :=
  runs_apart (fun _ _ h h' => ⟨h, h'⟩) (fun _ => rfl) trivial

theorem runs_space : Runs A [.space] B := runs_apart (fun _ _ h h' => ⟨h, h'⟩) (fun _ => rfl) trivial

theorem runs_rnl : Runs A [.rnl] B := runs_apart (fun _ _ h h' => ⟨h, h'⟩) (fun _ => rfl) trivial

theorem runs_comment {t : List Byte} (ht : CommentText t) : Runs A [.comment t] B :=
  runs_apart (fun _ _ h h' => ⟨h, h'⟩) (fun _ => rfl) ht

theorem Flow.comment {t : List Byte} (ht : CommentText t) : Flow A (.comment t) B := by
  intro ns m i es hl
  rw [show es = [.comment t] from hl]
  exact runs_comment ht

theorem Flow.suffix {l : Option Bool} {t : List Byte} (ht : CommentText t) : Flow A (.suffix l t) A := by
  intro ns m i es hl s hs
  rw [show es = [.suffix l i t] from hl]
  refine ⟨⟨hs.noStr, trivial⟩, hs, ?_⟩
  intro e he
  cases List.mem_singleton.1 he
  exact ht

theorem Flow.space : Flow A .space B := by
  intro ns m i es hl
  rw [show es = [.space] from hl]
  exact runs_space

theorem Flow.pad : Flow A .pad A := by
  intro ns m i es hl
  obtain ⟨n, rfl⟩ := hl
  unfold padEls
  split
  · exact Runs.nil
  · rename_i hn
    have h0 : List.replicate n (32 : Byte) ≠ [] := by
      intro h
      have := congrArg List.length h
      simp at this
      exact hn this
    refine runs_apart ?_ ?_ ?_
    · intro s es h h'
      refine ⟨h, ?_⟩
      rw [if_neg h0]; exact h'
    · intro s
      show glueEnd (if _ then _ else _) [] = _
      rw [if_neg h0]; rfl
    · intro b hb
      have := List.eq_of_mem_replicate hb
      subst this
      exact .inl (by decide)

theorem Flow.hard : Flow A (.line .hard) B := by
  intro ns m i es hl
  rw [show es = [.nl false i] from hl]
  exact runs_nl

theorem Flow.empty : Flow A (.line .empty) B := by
  intro ns m i es hl
  rw [show es = [.nl true i] from hl]
  exact runs_nl

theorem Flow.softOrSpace : Flow A (.line .softOrSpace) B := by
  intro ns m i es hl
  rw [show es = layLine ns m i .softOrSpace from hl]
  unfold layLine
  simp only
  split
  · exact runs_space
  · exact runs_nl

theorem Flow.soft : Flow A (.line .soft) A := by
  intro ns m i es hl
  rw [show es = layLine ns m i .soft from hl]
  unfold layLine
  simp only
  split
  · exact Runs.nil
  · exact runs_nl

theorem Flow.rnl : Flow A .rnl B := by
  intro ns m i es hl
  rw [show es = [.rnl] from hl]
  exact runs_rnl

theorem Flow.indent (h : Flow A d B) : Flow A (.indent d) B :=
  fun ns m i es hl => h ns m (i + 1) es hl

theorem Flow.group {ex : Bool} (h : Flow A d B) : Flow A (.group ex d) B := by
  intro ns m i es hl
  obtain ⟨m', -, hl⟩ := hl
  exact h ns m' i es hl

theorem Flow.ifBreaks (h : Flow A d A) : Flow A (.ifBreaks d) A := by
  intro ns m i es hl
  rcases hl with ⟨-, hl⟩ | ⟨-, hl⟩
  · exact h ns m i es hl
  · rw [hl]; exact Runs.nil

theorem Flow.noSoft (h : Flow A d B) : Flow A (.noSoft d) B :=
  fun _ _ i es ⟨m, hl, _⟩ => h true m i es hl

theorem Flow.alt (h : Flow A d B) (h' : Flow A d' B) : Flow A (.alt d d') B := by
  intro ns m i es hl
  rcases hl with hl | hl
  · exact h ns m i es hl
  · exact h' ns m i es hl

theorem Flow.verb {es : List El} (h : Runs A es B) : Flow A (.verb es) B := by
  intro ns m i es' hl
  rw [show es' = es from hl]
  exact h

theorem Flow.ite {p : Prop} [Decidable p] (h : p → Flow A d B) (h' : ¬p → Flow A d' B) :
    Flow A (if p then d else d') B := by
  split
  · exact h (by assumption)
  · exact h' (by assumption)

/-- A cell. -/
theorem filter_glued : ∀ (x : List El) (s : Option Tok), Glued s x →
    Glued s (x.filter (fun e => match e with | .suffix .. => false | _ => true)) ∧
      glueEnd s (x.filter (fun e => match e with | .suffix .. => false | _ => true)) = glueEnd s x
  | [], s, _ => ⟨trivial, rfl⟩
  | e :: x, s, h => by
    cases e with
    | suffix l i t => exact filter_glued x s h.2
    | tok u => exact ⟨⟨h.1, (filter_glued x _ h.2).1⟩, (filter_glued x _ h.2).2⟩
    | space => exact ⟨⟨h.1, (filter_glued x _ h.2).1⟩, (filter_glued x _ h.2).2⟩
    | nl b i => exact ⟨⟨h.1, (filter_glued x _ h.2).1⟩, (filter_glued x _ h.2).2⟩
    | comment t => exact ⟨⟨h.1, (filter_glued x _ h.2).1⟩, (filter_glued x _ h.2).2⟩
    | blank bs => exact ⟨⟨h.1, (filter_glued x _ h.2).1⟩, (filter_glued x _ h.2).2⟩
    | rnl => exact ⟨⟨h.1, (filter_glued x _ h.2).1⟩, (filter_glued x _ h.2).2⟩

theorem suffixes_run {A : Byte → Bool} : ∀ (x : List El), (∀ e ∈ x, Plain e) →
    Runs A (x.flatMap (fun e => match e with | .suffix _ _ t => [.space, .comment t] | _ => [])) A
  | [], _ => Runs.nil
  | e :: x, h => by
    have ih := suffixes_run (A := A) x (fun e he => h e (List.mem_cons_of_mem _ he))
    have he := h e (List.mem_cons_self ..)
    rw [List.flatMap_cons]
    cases e with
    | suffix l i t => exact ((runs_space (B := A)).append (runs_comment (B := A) he)).append ih
    | _ => exact ih

theorem Flow.cell (h : Flow A d B) : Flow A (.cell d) B := by
  intro ns m i es hl
  obtain ⟨x, m', hl, -, rfl⟩ := hl
  intro s hs
  obtain ⟨h1, h2, h3⟩ := h true m' 0 x hl s hs
  obtain ⟨g1, g2⟩ := filter_glued x s h1
  have hr := suffixes_run (A := B) x h3 (glueEnd s x) h2
  show Glued s (_ ++ _) ∧ Before B (glueEnd s (_ ++ _)) ∧ _
  rw [← g2] at hr
  rw [glued_append, glueEnd_append]
  refine ⟨⟨g1, hr.1⟩, hr.2.1, ?_⟩
  intro e he
  rcases List.mem_append.1 he with he | he
  · exact h3 e (List.mem_filter.1 he).1
  · exact hr.2.2 e he

/-! ## Comments and blocks -/

theorem AnnOk.leading {a : Ann} (h : AnnOk a) : ∀ c ∈ a.leading, CommentText c.text :=
  fun c hc => h c (by simp [Ann.all, hc])
theorem AnnOk.dangling {a : Ann} (h : AnnOk a) : ∀ c ∈ a.dangling, CommentText c.text :=
  fun c hc => h c (by simp [Ann.all, hc])
theorem AnnOk.trailing {a : Ann} (h : AnnOk a) : ∀ c ∈ a.trailing, CommentText c.text :=
  fun c hc => h c (by simp [Ann.all, hc])

theorem flow_leading : ∀ (cs : List Comment), (∀ c ∈ cs, CommentText c.text) → Flow A (leadingDoc cs) A
  | [], _ => Flow.nil
  | c :: cs, h => by
    refine (Flow.comment (B := A) (h c (List.mem_cons_self ..))).cat (Flow.cat (B := A) ?_
      (flow_leading cs fun c hc => h c (List.mem_cons_of_mem _ hc)))
    split
    · exact Flow.hard
    · exact Flow.empty

theorem flow_trailing : ∀ (cs : List Comment) (n : Nat), (∀ c ∈ cs, CommentText c.text) →
    Flow A (trailingDoc n cs) A
  | [], _, _ => Flow.nil
  | c :: cs, n, h => (Flow.suffix (h c (List.mem_cons_self ..))).cat
      (flow_trailing cs _ fun c hc => h c (List.mem_cons_of_mem _ hc))

theorem flow_dangling : ∀ (cs : List Comment), (∀ c ∈ cs, CommentText c.text) →
    Flow A (danglingComments cs) A
  | [], _ => Flow.nil
  | [c], h => Flow.comment (h c (List.mem_cons_self ..))
  | c :: c' :: cs, h => (Flow.comment (B := A) (h c (List.mem_cons_self ..))).cat
      (Flow.hard.cat (flow_dangling (c' :: cs) fun c hc => h c (List.mem_cons_of_mem _ hc)))

theorem Flow.softBlock (h : Flow A d B) : Flow A (softBlock d) B :=
  (Flow.indent (Flow.soft.cat h)).cat Flow.soft

theorem Flow.hardBlock (h : Flow anyByte d B) : Flow A (hardBlock d) C :=
  (Flow.indent (Flow.hard.cat h)).cat Flow.hard

theorem Flow.spaceBlock (h : Flow anyByte d B) : Flow A (spaceBlock d) C :=
  (Flow.indent (Flow.softOrSpace.cat h)).cat Flow.softOrSpace

theorem flow_danglingSoft (cs : List Comment) (h : ∀ c ∈ cs, CommentText c.text) :
    Flow A (danglingSoft cs) A := by
  unfold danglingSoft
  split
  · exact Flow.nil
  · exact Flow.group (flow_dangling cs h).softBlock

theorem flow_danglingHard (cs : List Comment) (h : ∀ c ∈ cs, CommentText c.text) :
    Flow A (danglingHard cs) A := by
  unfold danglingHard
  split
  · exact Flow.nil
  · exact (flow_dangling cs h).hardBlock

theorem flow_node {a : Ann} (ha : AnnOk a) (h : Flow A d B) (h' : Flow B d' B) : Flow A (nodeDoc a d d') B :=
  (flow_leading _ ha.leading).cat (h.cat (h'.cat (flow_trailing _ _ ha.trailing)))

theorem flow_maybeSpace (b : Bool) : Flow A (maybeSpace b) A := by
  cases b
  · exact Flow.nil
  · exact Flow.space

/-! ## Tokens -/

theorem Is.text {t : Token} {k : Kind} {x : List Byte} (h : Is [k] t) (hx : (x, k) ∈ symbols) :
    (outTok t).text = x := by
  refine h.2.text ?_
  rw [show (outTok t).kind = k from List.mem_singleton.1 h.1]
  exact hx

theorem first_text {t : Tok} {b : Byte} {r : List Byte} (h : t.text = b :: r) (hb : B b = true) :
    FirstByte B t := by
  intro b' r' h'
  rw [h] at h'
  cases h'
  exact hb

theorem first_every (t : Tok) : FirstByte anyByte t := fun _ _ _ => rfl

theorem holds_of {t : Token} {ks : List Kind} (h : Is ks t) (hk : ∀ k ∈ ks, k ≠ .stringOpen ∧
    k ≠ .stringContent) : holds (outTok t) = false := by
  obtain ⟨h2, h3⟩ := hk _ h.1
  have h2 : (outTok t).kind ≠ .stringOpen := h2
  have h3 : (outTok t).kind ≠ .stringContent := h3
  simp [holds, h2, h3]

/-- Before and after spaces. -/
theorem flow_word {t : Token} {ks : List Kind} (h : Is ks t) (hk : ∀ k ∈ ks, k ≠ .stringOpen ∧
    k ≠ .stringContent) : Flow anyByte (tokDoc t) noByte :=
  Flow.tok (first_every _) (holds_of h hk) (fun _ hb => by cases hb)

theorem flow_open {t : Token} {ks : List Kind} (h : Is ks t) (ha : FirstByte A (outTok t))
    (hk : ∀ k ∈ ks, k ∈ openKinds ∧ k ≠ .stringOpen ∧ k ≠ .stringContent) : Flow A (tokDoc t) gap :=
  Flow.tok ha (holds_of h fun k hm => (hk k hm).2) (fun _ hb => h.2.opens (hk _ h.1).1 hb)

theorem flow_end {t : Token} (h : TokEnds (outTok t)) (ha : FirstByte A (outTok t)) : Flow A (tokDoc t) cont :=
  Flow.tok ha h.1 h.2

theorem close_gap {b : Byte} (h : close b = true) : gap b = true := by
  have : ∀ b ∈ ([41, 93, 44, 125] : List Byte), gap b = true := by decide
  exact this b (List.elem_iff.1 h)

theorem close_cont {b : Byte} (h : close b = true) : cont b = true := by
  have : ∀ b ∈ ([41, 93, 44, 125] : List Byte), cont b = true := by decide
  exact this b (List.elem_iff.1 h)

theorem Flow.closeCont (h : Flow A d cont) : Flow A d close := h.post fun _ => close_cont
theorem Flow.closeGap (h : Flow A d gap) : Flow A d close := h.post fun _ => close_gap

theorem flow_lParen {t : Token} (h : Is [.lParen] t) (ha : A 40 = true) : Flow A (tokDoc t) gap :=
  flow_open h (first_text (h.text (x := [40]) (by decide)) ha) (by decide)

theorem flow_rParen {t : Token} (h : Is [.rParen] t) (ha : A 41 = true) : Flow A (tokDoc t) cont :=
  flow_end (h.ends (by decide)) (first_text (h.text (x := [41]) (by decide)) ha)

theorem flow_lCurly {t : Token} (h : Is [.lCurly] t) (ha : A 123 = true) : Flow A (tokDoc t) gap :=
  flow_open h (first_text (h.text (x := [123]) (by decide)) ha) (by decide)

theorem flow_rCurly {t : Token} (h : Is [.rCurly] t) (ha : A 125 = true) : Flow A (tokDoc t) cont :=
  flow_end (h.ends (by decide)) (first_text (h.text (x := [125]) (by decide)) ha)

theorem flow_comma {t : Token} (h : Is [.comma] t) (ha : A 44 = true) : Flow A (tokDoc t) gap :=
  flow_open h (first_text (h.text (x := [44]) (by decide)) ha) (by decide)

theorem flow_lBrace (ha : A 123 = true) : Flow A (.tok lBrace) gap :=
  flow_lCurly (t := ⟨.lCurly, [], [123], []⟩) ⟨by decide, _, rfl, rfl⟩ ha

theorem flow_rBrace (ha : A 125 = true) : Flow A (.tok rBrace) cont :=
  flow_rCurly (t := ⟨.rCurly, [], [125], []⟩) ⟨by decide, _, rfl, rfl⟩ ha

/-- Opening brackets of calls. -/
theorem flow_callOpen {k : CallKind} {t : Token} (h : Is [openKind k] t) : Flow cont (tokDoc t) gap := by
  refine flow_open h (h.2.cont ?_) ?_
  · rw [show (outTok t).kind = openKind k from List.mem_singleton.1 h.1]
    cases k <;> decide
  · cases k <;> decide

theorem close_lexeme {k : CallKind} {t : Token} (hk : t.kind = closeKind k) (h : Lexeme (outTok t)) :
    TokEnds (outTok t) ∧ FirstByte close (outTok t) := by
  have hk' : (outTok t).kind = closeKind k := hk
  rcases h with h | ⟨h, h'⟩
  · cases k with
    | call =>
      have h1 : Is [.rParen] t := ⟨by rw [hk]; decide, h⟩
      exact ⟨h1.ends (by decide), first_text (h1.text (x := [41]) (by decide)) (by decide)⟩
    | subset =>
      refine ⟨ends_exempt (by rw [hk']; rfl), ?_⟩
      obtain ⟨s, -, ⟨-, h2⟩ | ⟨-, -, h2, -⟩⟩ := h.cases
      · rw [hk'] at h2
        have : ∀ p ∈ symbols, p.2 ≠ .rBrack := by decide
        exact absurd rfl (this _ h2)
      · exact first_text (h2 hk') (by decide)
    | subset2 => exact absurd hk' h.not_two
  · refine ⟨ends_exempt (by rw [h]; rfl), first_text h' (by decide)⟩

/-- Closing brackets of calls. -/
theorem flow_callClose {k : CallKind} {t : Token} (hk : t.kind = closeKind k) (h : Lexeme (outTok t)) :
    Flow close (tokDoc t) cont :=
  flow_end (close_lexeme hk h).1 (close_lexeme hk h).2

/-! ## Strings -/

theorem flow_string {op : Token} {c : Option Token} {cl : Token} (h : Quoted op c cl) :
    Flow gap (tokDoc op ⊹ (match c with | some t => tokDoc t | none => .nil) ⊹ tokDoc cl) cont := by
  intro ns m i es hl
  have hes : ∃ mid, es = .tok (outTok op) :: (mid ++ [.tok (outTok cl)]) ∧
      mid = c.toList.map (fun t => .tok (outTok t)) := by
    obtain ⟨x, y, rfl, h1, y1, y2, rfl, h2, h3⟩ := hl
    rw [show x = [.tok (outTok op)] from h1, show y2 = [.tok (outTok cl)] from h3]
    refine ⟨y1, rfl, ?_⟩
    cases c with
    | none => exact h2
    | some c => exact h2
  obtain ⟨mid, rfl, rfl⟩ := hes
  obtain ⟨h1, h2, h3, h4⟩ := h
  have hop : holds (outTok op) = true := by
    have : (outTok op).kind = .stringOpen := List.mem_singleton.1 h1.1
    simp [holds, this]
  have hcl : holds (outTok cl) = false := by
    have : (outTok cl).kind = .stringClose := h3
    simp [holds, this]
  have hend : Before cont (some (outTok cl)) := by
    intro t ht
    cases ht
    refine ⟨hcl, fun b _ => .inl ?_⟩
    show exempt cl.kind = true
    rw [h3]; rfl
  intro s hs
  have hf : Follows s (outTok op) := hs.follows (h1.gap (by decide))
  cases c with
  | none =>
    refine ⟨⟨hf, .inl hop, trivial⟩, hend, ?_⟩
    intro e he
    simp only [Option.toList_none, List.map_nil, List.nil_append, List.mem_cons, List.not_mem_nil, or_false] at he
    rcases he with rfl | rfl <;> trivial
  | some c =>
    have hc : holds (outTok c) = true := by
      have : (outTok c).kind = .stringContent := (h2 c rfl).1
      simp [holds, this]
    refine ⟨⟨hf, .inl hop, .inl hc, trivial⟩, hend, ?_⟩
    intro e he
    simp only [Option.toList_some, List.map_cons, List.map_nil, List.cons_append, List.nil_append, List.mem_cons,
      List.not_mem_nil, or_false] at he
    rcases he with rfl | rfl | rfl <;> trivial

/-! ## Source text -/

/-- What comes between two tokens in the source keeps them apart. -/
def Link (t u : Token) : Prop :=
  Glued (some (outTok t)) (t.trailing.map pieceEl ++ u.leading.map pieceEl ++ [.tok (outTok u)]) ∧
    ∀ e ∈ t.trailing.map pieceEl ++ u.leading.map pieceEl, Plain e

def Linked : List Token → Prop
  | [] => True
  | [_] => True
  | t :: u :: ts => Link t u ∧ Linked (u :: ts)

theorem Linked.tail {t : Token} {ts : List Token} (h : Linked (t :: ts)) : Linked ts := by
  cases ts with
  | nil => trivial
  | cons u ts => exact h.2

theorem Linked.left : ∀ {x y : List Token}, Linked (x ++ y) → Linked x
  | [], _, _ => trivial
  | [_], _, _ => trivial
  | _ :: _ :: _, _, h => ⟨h.1, Linked.left h.2⟩

theorem Linked.right : ∀ {x y : List Token}, Linked (x ++ y) → Linked y
  | [], _, h => h
  | _ :: _, _, h => Linked.right (Linked.tail h)

theorem linked_runs : ∀ (ts : List Token) (t : Token) (s : Option Tok), Linked (t :: ts) → Follows s (outTok t) →
    Glued s (rawEls (t :: ts)) ∧ (∀ e ∈ rawEls (t :: ts), Plain e) ∧
      ∀ r u, t :: ts = r ++ [u] → glueEnd s (rawEls (t :: ts)) = some (outTok u)
  | [], t, s, _, hf => by
    refine ⟨⟨hf, trivial⟩, ?_, ?_⟩
    · intro e he
      cases List.mem_singleton.1 he
      trivial
    · intro r u h
      cases r with
      | nil => cases h; rfl
      | cons x r =>
        have := congrArg List.length h
        simp at this
  | u :: ts, t, s, h, hf => by
    obtain ⟨⟨h1, h2⟩, h3⟩ := h
    rw [rawEls]
    rw [glued_append] at h1
    have ih := linked_runs ts u (glueEnd (some (outTok t)) (t.trailing.map pieceEl ++ u.leading.map pieceEl)) h3
      h1.2.1
    refine ⟨⟨hf, ?_⟩, ?_, ?_⟩
    · rw [glued_append]
      exact ⟨h1.1, ih.1⟩
    · intro e he
      rcases List.mem_cons.1 he with rfl | he
      · trivial
      · rcases List.mem_append.1 he with he | he
        · exact h2 e he
        · exact ih.2.1 e he
    · intro r v hr
      cases r with
      | nil => cases hr
      | cons x r =>
        simp only [List.cons_append, List.cons.injEq] at hr
        show glueEnd (some (outTok t)) _ = _
        rw [glueEnd_append]
        exact ih.2.2 r v hr.2

theorem flow_raw {ts : List Token} (h : Linked ts) (h1 : ∃ t r, ts = t :: r ∧ FirstByte A (outTok t))
    (h2 : ∃ r t, ts = r ++ [t] ∧ Before B (some (outTok t))) : Flow A (.verb (rawEls ts)) B := by
  obtain ⟨t, r, rfl, h1⟩ := h1
  obtain ⟨r', u, hu, h2⟩ := h2
  refine Flow.verb ?_
  intro s hs
  obtain ⟨g1, g2, g3⟩ := linked_runs r t s h (hs.follows h1)
  refine ⟨g1, ?_, g2⟩
  rw [g3 r' u hu]
  exact h2

theorem flow_verbatim {a : Ann} {ts : List Token} (ha : AnnOk a) (h : Flow A (.verb (rawEls ts)) B) :
    Flow A (verbatimDoc a ts) B := by
  refine (flow_leading _ fun c hc => ha.leading c ?_).cat (h.cat (flow_trailing _ _ fun c hc => ha.trailing c ?_))
  · exact (List.takeWhile_sublist _).mem hc
  · exact (List.dropWhile_sublist _).mem hc

theorem TokEnds.at {t : Tok} (h : TokEnds t) : Before cont (some t) := by
  intro u hu
  cases hu
  exact h

theorem flow_rawExpr {e : Expr} (h : e.lexical) (hl : Linked e.tokens) :
    Flow gap (.verb (rawEls e.tokens)) cont := by
  obtain ⟨h1, r, t, h2, h3⟩ := edges e h
  exact flow_raw hl h1 ⟨r, t, h2, h3.at⟩

theorem flow_wrap {o : Opts} {cx : Cx} {e : Expr} (he : e.lexical) (ha : AnnOk e.ann) (hl : Linked e.tokens)
    (h : Flow gap d cont) : Flow gap (wrapDoc o cx e d) cont := by
  unfold wrapDoc
  split
  · exact h.cat (flow_trailing _ _ ha.trailing)
  · split
    · exact flow_verbatim ha (flow_rawExpr he hl)
    · refine flow_node ha h ?_
      split
      · exact Flow.nil
      · exact flow_danglingSoft _ ha.dangling

theorem flow_body {as force : Bool} (h : Flow gap d cont) : Flow gap (bodyDoc as force d) cont := by
  unfold bodyDoc
  split
  · exact h
  · unfold braceDoc
    split
    · exact (flow_lBrace (by decide)).cat ((Flow.hardBlock (C := anyByte) (h.pre fun _ _ => rfl)).cat
        (flow_rBrace (by decide)))
    · exact (Flow.ifBreaks (flow_lBrace (by decide))).cat (h.softBlock.cat
        (Flow.ifBreaks (flow_rBrace (by decide))))

theorem flow_sep (double : Bool) (n : Nat) : Flow A (stmtSep double n) B := by
  unfold stmtSep
  repeat' split
  · exact (Flow.empty (B := anyByte)).cat Flow.rnl
  · exact Flow.empty
  · exact Flow.hard
  · exact Flow.empty
  · exact Flow.hard

end Verif.Format
