import Verif.Lemmas.NotedSays
import Verif.Lemmas.Reread
import Verif.Spec.Noted

/-!
# The text with statements for comments
-/

namespace Verif.Format
open Verif.Syntax Verif.Whole

variable {o : Opts} {N : Nat}

/-! ## Printing -/

theorem tell_text (s : PState) {e : El} (he : e.clean = true) :
    (printText s (e.tell N)) = ((printText s e).1.map (El.tell N), (printText s e).2) := by
  simp only [printText, List.map_append, List.map_cons, List.map_nil, Prod.mk.injEq]
  refine ⟨?_, trivial⟩
  congr 2
  · split <;> rfl
  · split <;> rfl

theorem tell_nl (s : PState) (k : Bool) (j : Nat) : (printNl s k j).1.map (El.tell N) = (printNl s k j).1 := by
  simp only [printNl, List.map_append]
  congr 1
  · split <;> rfl
  · split <;> rfl

theorem flush_none {s : PState} (h : s.sfx = []) : flush s = ([], s) := by
  unfold flush
  rw [h, printSuffixes]
  obtain ⟨a, b, c, d, e⟩ := s
  cases h
  rfl

theorem printEl_sfx {s : PState} (h : s.sfx = []) {e : El} (he : e.clean = true) : (printEl s e).2.sfx = [] := by
  cases e <;> simp [El.clean] at he
  case nl => simp only [printEl, flush_none h]; exact h
  all_goals exact h

theorem emit_tell : ∀ (x : List El) (s : PState), s.sfx = [] → (∀ e ∈ x, e.clean = true) →
    printEls s (x.map (El.tell N)) = (printEls s x).map (El.tell N)
  | [], s, hs, _ => by simp only [List.map_nil, printEls, flush_none hs]
  | e :: x, s, hs, hx => by
    have he := hx e (by simp)
    have ih := fun s hs => emit_tell x s hs (fun a ha => hx a (by simp [ha]))
    have key : printEl s (e.tell N) = ((printEl s e).1.map (El.tell N), (printEl s e).2) := by
      cases e <;> simp [El.clean] at he
      case tok t =>
        have h1 : printEl s (El.tell N (.tok t)) = printText s (El.tell N (.tok t)) := by
          simp only [El.tell]
          split <;> rfl
        rw [h1]
        exact tell_text s rfl
      case space => rfl
      case nl k j => simp only [El.tell, printEl, flush_none hs, List.nil_append, tell_nl]
      case rnl =>
        have := congrArg Prod.fst (tell_text (N := N) s (e := .rnl) rfl)
        exact congrArg (fun l => (l, { (printText s .rnl).2 with started := false })) this
    rw [List.map_cons, printEls, key, printEls, List.map_append, ih _ (printEl_sfx hs he)]

/-! ## Line breaks around tokens that stand for comments -/

/-- As `Neatly`. -/
def Spaced (N : Nat) (f : Bool) : List (Nat × Tok) → Prop
  | [] => True
  | p :: L => (N < p.2.text.length → (f = true ∨ 1 ≤ p.1) ∧ ∃ q L', L = q :: L' ∧ 1 ≤ q.1 ∧ q.1 ≤ 2) ∧ Spaced N false L

theorem lineFeeds_text (n : Nat) (s : PState) (t : Tok) (z : List El) :
    lineFeeds n ((printText s (.tok t)).1 ++ z) = (n, t) :: lineFeeds 0 z := by
  simp only [printText, List.append_assoc]
  rw [lineFeeds_ind, lineFeeds_gap]
  rfl

theorem lineFeeds_textRnl (n : Nat) (s : PState) (z : List El) :
    lineFeeds n ((printText s .rnl).1 ++ z) = lineFeeds (n + 1) z := by
  simp only [printText, List.append_assoc]
  rw [lineFeeds_ind, lineFeeds_gap]
  rfl

theorem lineFeeds_nl (n : Nat) (s : PState) (k : Bool) (j : Nat) (z : List El) :
    lineFeeds n ((printNl s k j).1 ++ z) =
      lineFeeds (n + (if s.started then 1 else 0) + (if k && (s.started || !s.emptyLine) then 1 else 0)) z := by
  simp only [printNl, List.append_assoc]
  rw [lineFeeds_rnl, lineFeeds_rnl]

theorem spaced_emit : ∀ (x : List El) (s : PState) (n : Nat) (b f : Bool), s.sfx = [] → (∀ e ∈ x, e.clean = true) →
    Ruled N b x → (b = true → s.started = false) → (s.started = false → f = true ∨ 1 ≤ n) →
    Spaced N f (lineFeeds n (printEls s x))
  | [], s, n, b, f, hs, _, _, _, _ => by
    rw [printEls, flush_none hs]
    trivial
  | e :: x, s, n, b, f, hs, hx, hr, hb, hf => by
    have he := hx e (by simp)
    have hx' : ∀ e ∈ x, e.clean = true := fun a ha => hx a (by simp [ha])
    have hs' := printEl_sfx hs he
    rw [printEls]
    cases e <;> simp [El.clean] at he
    case tok t =>
      have h1 : printEl s (.tok t) = printText s (.tok t) := rfl
      rw [h1] at hs' ⊢
      rw [lineFeeds_text]
      refine ⟨fun h => ?_, ?_⟩
      · obtain ⟨h2, k, j, u, y, rfl⟩ := hr.1 (by simpa [El.isNote, Tok.isNote] using h)
        refine ⟨hf (hb h2), ?_⟩
        have h3 : (printText s (.tok t)).2.started = true := rfl
        have h4 : printEl (printText s (.tok t)).2 (.nl k j) = printNl (printText s (.tok t)).2 k j := by
          simp only [printEl, flush_none hs', List.nil_append]
        rw [printEls, h4, lineFeeds_nl, printEls]
        have h5 : ∀ s, printEl s (.tok u) = printText s (.tok u) := fun _ => rfl
        rw [h5, lineFeeds_text]
        refine ⟨_, _, rfl, ?_, ?_⟩
        · simp [h3]
        · simp only [h3, if_true]
          split <;> simp
      · exact spaced_emit x _ 0 false false hs' hx' hr.2 nofun nofun
    case space => exact spaced_emit x (printSpace s) n false f hs hx' hr.2 nofun hf
    case nl k j =>
      have h4 : printEl s (.nl k j) = printNl s k j := by
        simp only [printEl, flush_none hs, List.nil_append]
      rw [h4] at hs' ⊢
      rw [lineFeeds_nl]
      refine spaced_emit x _ _ true f hs' hx' hr.2 (fun _ => rfl) (fun _ => ?_)
      cases h5 : s.started with
      | true => right; simp; omega
      | false =>
        rcases hf h5 with h | h
        · exact .inl h
        · right; omega
    case rnl =>
      have h4 : (printEl s .rnl).1 = (printText s .rnl).1 := rfl
      rw [h4, lineFeeds_textRnl]
      exact spaced_emit x _ _ true f hs' hx' hr.2 (fun _ => rfl) (fun _ => .inr (by omega))

/-! ## Tokens -/

/-- The token after `n` line breaks. -/
def lined (p : Nat × Tok) : Token := ⟨p.2.kind, List.replicate p.1 nlPiece, p.2.text, []⟩

theorem lined_lines (p : Nat × Tok) : linesBeforeToken (lined p) = p.1 := fresh_lines p.1 (lined p)

theorem lined_out {p : Nat × Tok} (h : p.2.stays) : outTok (lined p) = p.2 := h

theorem lined_trim {p : Nat × Tok} (h : p.2.stays) : Trim (lined p) := by
  refine ⟨?_, by rw [lined_out h]; rfl⟩
  simp only [hush, lined_lines]
  rfl

theorem lined_bland (p : Nat × Tok) : Bland (lined p) := ⟨nls_comment _, rfl⟩

theorem neatly_spaced : ∀ {f : Bool} (L : List (Nat × Tok)), Spaced N f L → (∀ p ∈ L, p.2.stays) →
    Neatly N f (L.map lined)
  | f, [], _, _ => ⟨nofun, by
      intro a t u b h
      simp at h, by
      intro a t b h
      simp at h⟩
  | f, p :: L, h, hst => by
    have ih := neatly_spaced L h.2 (fun p hp => hst p (by simp [hp]))
    have hp := hst p (by simp)
    refine ⟨?_, ?_, ?_⟩
    · intro t ht
      rcases List.mem_cons.1 ht with rfl | ht
      · exact lined_trim hp
      · exact ih.trim t ht
    · intro a t u b e hn
      rw [List.map_cons] at e
      cases a with
      | nil =>
        simp only [List.nil_append, List.cons.injEq] at e
        obtain ⟨rfl, e⟩ := e
        rw [lined_out hp] at hn
        obtain ⟨-, q, L', rfl, h2⟩ := h.1 hn
        simp only [List.map_cons, List.cons.injEq] at e
        rw [← e.1, lined_lines]
        exact h2
      | cons c a =>
        simp only [List.cons_append, List.cons.injEq] at e
        exact ih.next a t u b e.2 hn
    · intro a t b e hn
      rw [List.map_cons] at e
      cases a with
      | nil =>
        simp only [List.nil_append, List.cons.injEq] at e
        obtain ⟨rfl, e⟩ := e
        rw [lined_out hp] at hn
        rcases (h.1 hn).1 with h2 | h2
        · exact .inl ⟨h2, rfl⟩
        · right; rw [lined_lines]; exact h2
      | cons c a =>
        simp only [List.cons_append, List.cons.injEq] at e
        rcases ih.own a t b e.2 hn with h2 | h2
        · exact absurd h2.1 (by simp)
        · exact .inr h2

/-- Short, or a name. -/
def Tok.plainly (N : Nat) (t : Tok) : Prop := t.text.length ≤ N ∨ t.kind = .ident

theorem edits_plainly {st : Settings.AssignmentStyle} (hN : 2 ≤ N) {a b : List Tok} (h : Edits st a b)
    (ha : ∀ t ∈ a, t.plainly N) : ∀ t ∈ b, t.plainly N := by
  induction h with
  | nil => exact ha
  | same t _ ih =>
    intro u hu
    rcases List.mem_cons.1 hu with rfl | hu
    · exact ha _ (by simp)
    · exact ih (fun t ht => ha t (by simp [ht])) u hu
  | arrow t _ _ _ ih =>
    intro u hu
    rcases List.mem_cons.1 hu with rfl | hu
    · exact .inl hN
    · exact ih (fun t ht => ha t (by simp [ht])) u hu
  | equal t _ _ _ ih =>
    intro u hu
    rcases List.mem_cons.1 hu with rfl | hu
    · exact .inl (by simp; omega)
    · exact ih (fun t ht => ha t (by simp [ht])) u hu
  | braces _ _ ih1 ih2 =>
    intro u hu
    simp only [List.mem_cons, List.mem_append] at hu
    rcases hu with rfl | hu | rfl | hu
    · exact .inl (by simp; omega)
    · exact ih1 (fun t ht => ha t (by simp [ht])) u hu
    · exact .inl (by simp; omega)
    · exact ih2 (fun t ht => ha t (by simp [ht])) u hu

/-- Short, or a name. -/
def Brief (N : Nat) (t : Token) : Prop := t.text.length ≤ N ∨ t.kind = .ident

mutual
theorem aired_token : (e : Expr) → ∀ {w : Bool}, e.Aired o N w → ∀ t ∈ e.tokens, Brief N t
  | .atom _ _ t, w, h, u, hu => by cases List.mem_singleton.1 hu; exact .inl h
  | .str _ p c l, w, h, u, hu => by
    simp only [Expr.tokens, List.mem_cons, List.mem_append, List.mem_nil_iff, or_false, Option.mem_toList] at hu
    rcases hu with rfl | hu | rfl
    · exact .inl h.1
    · exact .inl (h.2.1 u hu)
    · exact .inl h.2.2
  | .paren _ l e r, w, h, u, hu => by
    simp only [Expr.tokens, List.mem_cons, List.mem_append, List.mem_nil_iff, or_false] at hu
    rcases hu with rfl | hu | rfl
    · exact .inl h.1
    · exact aired_token e h.2.1 u hu
    · exact .inl h.2.2
  | .braced _ l es r, w, h, u, hu => by
    simp only [Expr.tokens, List.mem_cons, List.mem_append, List.mem_nil_iff, or_false] at hu
    rcases hu with rfl | hu | rfl
    · exact .inl h.1
    · exact aired_tokens es h.2.2.1 u hu
    · exact .inl h.2.2.2
  | .unary _ p e, w, h, u, hu => by
    simp only [Expr.tokens, List.mem_cons] at hu
    rcases hu with rfl | hu
    · exact .inl h.1
    · exact aired_token e h.2 u hu
  | .binary _ x p y, w, h, u, hu => by
    simp only [Expr.tokens, List.mem_cons, List.mem_append] at hu
    rcases hu with hu | rfl | hu
    · exact aired_token x h.1 u hu
    · exact .inl h.2.1
    · exact aired_token y h.2.2 u hu
  | .sel _ _ x p y, w, h, u, hu => by
    simp only [Expr.tokens, List.mem_cons, List.mem_append] at hu
    rcases hu with hu | rfl | hu
    · exact aired_token x h.1 u hu
    · exact .inl h.2.1
    · exact aired_token y h.2.2 u hu
  | .call _ _ f _ l items r, w, h, u, hu => by
    simp only [Expr.tokens, List.mem_cons, List.mem_append, List.mem_nil_iff, or_false] at hu
    rcases hu with hu | rfl | hu | rfl
    · exact aired_token f h.1 u hu
    · exact .inl h.2.1
    · exact aired_tokenItems items h.2.2.1 u hu
    · exact .inl h.2.2.2
  | .func _ kw _ l items r b, w, h, u, hu => by
    simp only [Expr.tokens, List.mem_cons, List.mem_append] at hu
    rcases hu with rfl | rfl | hu | rfl | hu
    · exact .inl h.1
    · exact .inl h.2.1
    · exact aired_tokenItems items h.2.2.1 u hu
    · exact .inl h.2.2.2.1
    · exact aired_token b h.2.2.2.2 u hu
  | .ite _ kw l c r t, w, h, u, hu => by
    simp only [Expr.tokens, List.mem_cons, List.mem_append] at hu
    rcases hu with rfl | rfl | hu | rfl | hu
    · exact .inl h.1
    · exact .inl h.2.1
    · exact aired_token c h.2.2.1 u hu
    · exact .inl h.2.2.2.1
    · exact aired_token t h.2.2.2.2 u hu
  | .itee _ kw l c r t _ el e, w, h, u, hu => by
    simp only [Expr.tokens, List.mem_cons, List.mem_append] at hu
    rcases hu with rfl | rfl | hu | rfl | hu | rfl | hu
    · exact .inl h.1
    · exact .inl h.2.1
    · exact aired_token c h.2.2.1 u hu
    · exact .inl h.2.2.2.1
    · exact aired_token t h.2.2.2.2.1 u hu
    · exact .inl h.2.2.2.2.2.1
    · exact aired_token e h.2.2.2.2.2.2 u hu
  | .for_ _ kw l v i s r b, w, h, u, hu => by
    simp only [Expr.tokens, List.mem_cons, List.mem_append] at hu
    rcases hu with rfl | rfl | hu | rfl | hu | rfl | hu
    · exact .inl h.1
    · exact .inl h.2.1
    · exact aired_token v h.2.2.1 u hu
    · exact .inl h.2.2.2.1
    · exact aired_token s h.2.2.2.2.1 u hu
    · exact .inl h.2.2.2.2.2.1
    · exact aired_token b h.2.2.2.2.2.2 u hu
  | .while_ _ kw l c r b, w, h, u, hu => by
    simp only [Expr.tokens, List.mem_cons, List.mem_append] at hu
    rcases hu with rfl | rfl | hu | rfl | hu
    · exact .inl h.1
    · exact .inl h.2.1
    · exact aired_token c h.2.2.1 u hu
    · exact .inl h.2.2.2.1
    · exact aired_token b h.2.2.2.2 u hu
  | .repeat_ _ kw b, w, h, u, hu => by
    simp only [Expr.tokens, List.mem_cons] at hu
    rcases hu with rfl | hu
    · exact .inl h.1
    · exact aired_token b h.2 u hu
theorem aired_tokens : (es : Exprs) → ∀ {w : Bool}, es.Aired o N w → ∀ t ∈ es.tokens, Brief N t
  | .nil, w, h, u, hu => by cases hu
  | .cons e es, w, h, u, hu => by
    simp only [Exprs.tokens, List.mem_append] at hu
    rcases hu with hu | hu
    · rcases h.1 with ⟨h1, -, -⟩ | h1
      · cases e <;> try exact h1.elim
        cases List.mem_singleton.1 hu
        exact .inr h1.2.1
      · exact aired_token e h1 u hu
    · exact aired_tokens es h.2 u hu
theorem aired_tokenItems : (xs : Items) → ∀ {w : Bool}, xs.Aired o N w → ∀ t ∈ xs.tokens, Brief N t
  | .nil, w, h, u, hu => by cases hu
  | .last x, w, h, u, hu => aired_tokenArg x h u hu
  | .cons x s xs, w, h, u, hu => by
    simp only [Items.tokens, List.mem_cons, List.mem_append] at hu
    rcases hu with hu | rfl | hu
    · exact aired_tokenArg x h.1 u hu
    · exact .inl h.2.1
    · exact aired_tokenItems xs h.2.2 u hu
theorem aired_tokenArg : (x : Arg) → ∀ {w : Bool}, x.Aired o N w → ∀ t ∈ x.tokens, Brief N t
  | .hole _, w, h, u, hu => by cases hu
  | .val _ e, w, h, u, hu => aired_token e h u hu
  | .name _ _ n p, w, h, u, hu => by
    simp only [Arg.tokens, List.mem_cons, List.mem_append, List.mem_nil_iff, or_false] at hu
    rcases hu with hu | rfl
    · exact aired_token n h.1 u hu
    · exact .inl h.2
  | .named _ _ n p e, w, h, u, hu => by
    simp only [Arg.tokens, List.mem_cons, List.mem_append] at hu
    rcases hu with hu | rfl | hu
    · exact aired_token n h.1 u hu
    · exact .inl h.2.1
    · exact aired_token e h.2.2 u hu
  | .pdef _ n _ p e, w, h, u, hu => by
    simp only [Arg.tokens, List.mem_cons, List.mem_append] at hu
    rcases hu with hu | rfl | hu
    · exact aired_token n h.1 u hu
    · exact .inl h.2.1
    · exact aired_token e h.2.2 u hu
end

theorem aired_out {es : Exprs} {w : Bool} (h : es.bare.Aired o N w) : ∀ t ∈ es.tokens.map outTok, t.plainly N := by
  intro t ht
  obtain ⟨u, hu, rfl⟩ := List.mem_map.1 ht
  have h1 : bareTok u ∈ es.bare.tokens := by rw [bares_tokens]; exact List.mem_map_of_mem hu
  exact aired_tokens _ h _ h1

theorem ident_stays {t : Tok} (h : t.kind = .ident) : t.stays := by
  obtain ⟨k, s⟩ := t
  cases h
  rfl

theorem fixed_stays {t : Token} (h : (outTok t).text = t.text) : (outTok t).stays := by
  show outTok (bareTok t) = outTok t
  have h1 : (bareTok t).text = t.text := h
  have h2 : (bareTok t).kind = t.kind := rfl
  unfold outTok
  rw [h1, h2]

/-! ## The text of the tokens -/

theorem nls_els (n : Nat) : (List.replicate n nlPiece).map pieceEl = List.replicate n El.rnl := by
  rw [List.map_replicate]
  rfl

theorem solid_text : ∀ (z : List El) (n : Nat), (∀ e ∈ z, Printed e) → (∀ p ∈ lineFeeds n z, p.2.stays) →
    ∃ k, List.replicate n El.rnl ++ z.filter El.solid = raws ((lineFeeds n z).map lined) ++ List.replicate k .rnl
  | [], n, _, _ => ⟨n, by simp [lineFeeds, raws]⟩
  | e :: z, n, hz, hst => by
    have hz' : ∀ e ∈ z, Printed e := fun e he => hz e (by simp [he])
    rcases hz e (by simp) with ⟨t, rfl⟩ | rfl | ⟨bs, rfl, -⟩
    · rw [lineFeeds] at hst ⊢
      obtain ⟨k, hk⟩ := solid_text z 0 hz' (fun p hp => hst p (by simp [hp]))
      refine ⟨k, ?_⟩
      have h1 : t.stays := hst (n, t) (by simp)
      rw [List.filter_cons, if_pos (by rfl), List.map_cons, raws, List.flatMap_cons, List.append_assoc]
      unfold raws at hk
      rw [← hk]
      simp only [rawTok, lined_out (p := (n, t)) h1]
      simp only [lined, nls_els]
      simp
    · rw [lineFeeds] at hst ⊢
      obtain ⟨k, hk⟩ := solid_text z (n + 1) hz' hst
      refine ⟨k, ?_⟩
      rw [List.filter_cons, if_pos (by rfl), ← hk, List.replicate_succ']
      simp
    · exact solid_text z n hz' hst

theorem tell_solid (z : List El) : (z.map (El.tell N)).filter El.solid = (z.filter El.solid).map (El.tell N) := by
  induction z with
  | nil => rfl
  | cons e z ih =>
    have h : (e.tell N).solid = e.solid := by
      cases e <;> try rfl
      simp only [El.tell]
      split <;> rfl
    rw [List.map_cons, List.filter_cons, List.filter_cons, h, ih]
    split <;> rfl

theorem marks_solid : ∀ (z : List El), noSemi (elMarks z) = elMarks (z.filter El.solid)
  | [] => rfl
  | e :: z => by
    have ih := marks_solid z
    cases e
    case blank bs => rw [elMarks, noSemi_semis, List.filter_cons, if_neg (by simp [El.solid]), ih]
    all_goals
      rw [List.filter_cons, if_pos (by rfl)]
      simp only [elMarks, noSemi, ih]

end Verif.Format
