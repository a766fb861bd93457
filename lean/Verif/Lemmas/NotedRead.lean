import Verif.Lemmas.NotedRoot

/-!
# Formatted texts of files whose comments lead statements
-/

namespace Verif.Format
open Verif.Syntax Verif.Whole

variable {o : Opts} {N : Nat}

/-! ## Comments end with the line -/

/-- After a comment comes a line break. -/
def Barred : List El → Prop
  | [] => True
  | .comment _ :: es => (∃ r, es = .rnl :: r) ∧ Barred es
  | _ :: es => Barred es

theorem Barred.ended : ∀ {z : List El}, Barred z → Ended z
  | [], _ => trivial
  | e :: z, h => by
    cases e
    case comment t =>
      obtain ⟨⟨r, rfl⟩, h2⟩ := h
      refine ⟨fun b hb => ?_, Barred.ended h2⟩
      simp only [render, List.head?_cons, Option.some.injEq] at hb
      exact hb.symm
    all_goals exact Barred.ended (z := z) h

theorem Barred.respelled {a b : List El} (h : Respelled a b) (ha : Barred a) : Barred b := by
  induction h with
  | nil => trivial
  | same e hr ih =>
    cases e
    case comment t =>
      obtain ⟨⟨r, rfl⟩, h2⟩ := ha
      cases hr
      exact ⟨⟨_, rfl⟩, ih h2⟩
    all_goals exact ih ha
  | blank _ _ _ _ _ ih => exact ih ha

theorem barred_ind (i : Nat) (z : List El) :
    Barred ((if i = 0 then [] else [.blank (List.replicate i 9)]) ++ z) = Barred z := by
  split <;> rfl

theorem barred_gap (b : Bool) (z : List El) : Barred ((if b then [.blank [32]] else []) ++ z) = Barred z := by
  cases b <;> rfl

theorem barred_rnl (b : Bool) (z : List El) : Barred ((if b then [.rnl] else []) ++ z) = Barred z := by
  cases b <;> rfl

theorem barred_text (s : PState) (e : El) (z : List El) : Barred ((printText s e).1 ++ z) = Barred (e :: z) := by
  simp only [printText, List.append_assoc]
  rw [barred_ind, barred_gap]
  rfl

theorem barred_emit : ∀ (x : List El) (s : PState) (b : Bool), s.sfx = [] → (∀ e ∈ x, e.clean = true) →
    Ruled N b x → Barred (printEls s (x.map (El.tell N)))
  | [], s, b, hs, _, _ => by
    rw [List.map_nil, printEls, flush_none hs]
    trivial
  | e :: x, s, b, hs, hx, hr => by
    have he := hx e (by simp)
    have hx' : ∀ e ∈ x, e.clean = true := fun a ha => hx a (by simp [ha])
    have hs' := printEl_sfx hs he
    cases e <;> simp [El.clean] at he
    case tok t =>
      have h1 : printEl s ((El.tok t).tell N) = printText s ((El.tok t).tell N) := by
        simp only [El.tell]
        split <;> rfl
      have ih := barred_emit x (printText s (.tok t)).2 false hs' hx' hr.2
      rw [List.map_cons, printEls, h1, barred_text]
      have h2 : (printText s ((El.tok t).tell N)).2 = (printText s (.tok t)).2 := rfl
      rw [h2]
      by_cases hn : t.isNote N = true
      · obtain ⟨-, k, j, u, y, rfl⟩ := hr.1 hn
        have h3 : (El.tok t).tell N = .comment (t.text.drop (N + 1)) := by simp [El.tell, hn]
        rw [h3]
        refine ⟨?_, ih⟩
        have h4 : (printText s (.tok t)).2.started = true := rfl
        have h5 : printEl (printText s (.tok t)).2 (.nl k j) = printNl (printText s (.tok t)).2 k j := by
          have hs'' : (printText s (.tok t)).2.sfx = [] := hs'
          simp only [printEl, flush_none hs'', List.nil_append]
        refine ⟨?_, ?_⟩
        rotate_left
        · rw [List.map_cons, printEls]
          have h6 : (El.nl k j).tell N = .nl k j := rfl
          rw [h6, h5]
          simp only [printNl, h4, if_true, List.cons_append, List.nil_append]
          rfl
      · have h3 : (El.tok t).tell N = .tok t := tell_short (by simpa using hn)
        rw [h3]
        exact ih
    case space => exact barred_emit x (printSpace s) false hs hx' hr.2
    case nl k j =>
      have h4 : printEl s (.nl k j) = printNl s k j := by
        simp only [printEl, flush_none hs, List.nil_append]
      rw [h4] at hs'
      have ih := barred_emit x (printNl s k j).2 true hs' hx' hr.2
      have h6 : (El.nl k j).tell N = .nl k j := rfl
      rw [List.map_cons, printEls, h6, h4]
      simp only [printNl, List.append_assoc]
      rw [barred_rnl, barred_rnl]
      exact ih
    case rnl =>
      have h6 : El.rnl.tell N = .rnl := rfl
      have h4 : (printEl s .rnl).1 = (printText s .rnl).1 := rfl
      rw [List.map_cons, printEls, h6, h4, barred_text]
      exact barred_emit x (printEl s .rnl).2 true hs' hx' hr.2

theorem barred_noted {x : Root} {els : List El} (ha : x.ann = {}) (hN : 2 ≤ N) (hn : x.es.Noted o N)
    (h : Prints .expanded 0 (fmtRoot o x) els) : Barred (emit els) := by
  obtain ⟨x1, x2, rfl, h1, h2⟩ := ((same_noted ha hn).prints _ _ _).1 h
  have hx2 : x2 = [.nl false 0] := h2
  subst hx2
  have hS := sim_exprs (q := False) hN x.es hn nofun {} true true
  obtain ⟨x10, p10, rfl⟩ := hS.fwd _ _ _ h1
  have hcl1 := clean_fmtExprs _ {} true true (simples_voiced x.es hn) ((prints_lays _ _ _ _ p10).2.1 rfl)
  have := barred_emit (N := N) (x10 ++ [.nl false 0]) {} true rfl (by
    intro e he
    rcases List.mem_append.1 he with he | he
    · exact hcl1 e he
    · cases List.mem_singleton.1 he; rfl) (ruled_snoc (hS.tame _ _ _ p10))
  rw [List.map_append] at this
  exact this

/-! ## Texts -/

theorem marks_inj : ∀ {a b : List El}, (∀ e ∈ a, Trivial e) → (∀ e ∈ b, Trivial e) → (∀ e ∈ a, e.solid = true) →
    (∀ e ∈ b, e.solid = true) → elMarks a = elMarks b → a = b
  | [], [], _, _, _, _, _ => rfl
  | [], f :: b, _, h2, _, h4, h => by
    have hf := h2 f (by simp)
    have hf' := h4 f (by simp)
    cases f <;> first | cases hf; done | cases hf'; done | cases h
  | e :: a, [], h1, _, h3, _, h => by
    have hf := h1 e (by simp)
    have hf' := h3 e (by simp)
    cases e <;> first | cases hf; done | cases hf'; done | cases h
  | e :: a, f :: b, h1, h2, h3, h4, h => by
    have he := h1 e (by simp)
    have he' := h3 e (by simp)
    have hf := h2 f (by simp)
    have hf' := h4 f (by simp)
    have ih := marks_inj (a := a) (b := b) (fun e h => h1 e (by simp [h])) (fun e h => h2 e (by simp [h]))
      (fun e h => h3 e (by simp [h])) (fun e h => h4 e (by simp [h]))
    cases e <;> first | exact he.elim | (cases he'; done) | skip
    all_goals
      cases f <;> first | exact hf.elim | (cases hf'; done) | skip
    all_goals
      simp only [elMarks, List.cons.injEq, Mark.tok.injEq, Mark.comment.injEq, reduceCtorEq, false_and] at h
    all_goals
      first | exact h.elim | (rw [ih h.2]; try rw [h.1])

theorem solid_respelled {a b : List El} (h : Respelled a b) : a.filter El.solid = b.filter El.solid := by
  induction h with
  | nil => rfl
  | same e _ ih => rw [List.filter_cons, List.filter_cons, ih]
  | blank _ _ _ _ _ ih => exact ih

variable {text : List Byte} {root : Verif.Parser.TsNode} {p : Exprs} {y : Root}

/-- What the parser finds in a printed text with comments that end their lines. -/
theorem rereads_noted {els out : List El} (hr : Respelled els out)
    (hg : Glued none out ∧ NoStr (glueEnd none out)) (ht : ∀ e ∈ out, Trivial e) (hk : Tracks [] (printedToks out))
    (hs : (seen .fresh out).map Prod.snd = printedToks out) (hb : Barred els) (ht' : lf text = render out)
    (ha : Agrees text root p) (hp : readText (lf text) = some p.bare) (hl : LineEnds text root)
    (hy : Parsed text root p y) (h13 : ∀ t ∈ p.tokens, 13 ∉ t.text) : RereadsNoted els y := by
  obtain ⟨q1, -, q3, q4, q5⟩ := parsed_program ha hp hl hy
  rw [ht'] at q1
  have hlex := lexText_glued hg.1 hg.2 ht hk hs
  have heq : seen .fresh (rawFile y.es.tokens y.eof) = seen .fresh out := by
    have h1 := q3.lexed
    rw [q1, hlex] at h1
    exact (Option.some.inj h1).symm
  have hm : elMarks (rawFile y.es.tokens y.eof) = elMarks out := by
    have h1 := hy.skim ha hp hl
    have h2 : skim (render out) = some (elMarks out) :=
      skim_parted out [] true _ _ ht (hb.respelled hr).ended (unbroken_glued _ none hg.1 hg.2) Stack.nil
        (Nat.lt_succ_self _) hlex hs
    rw [ht', h2] at h1
    exact (Option.some.inj h1).symm
  refine ⟨?_, ?_, fun t ht => hy.lines t (List.mem_append_left _ ht), hy.own, ⟨hy.empty, hy.trailing⟩, q4, ?_⟩
  · rw [solid_respelled hr]
    have htr := rawFile_trivial y.es.tokens y.eof q3.trivia
    exact marks_inj (fun e he => htr e (List.mem_filter.1 he).1) (fun e he => ht e (List.mem_filter.1 he).1)
      (fun e he => (List.mem_filter.1 he).2) (fun e he => (List.mem_filter.1 he).2)
      (by rw [← marks_solid, ← marks_solid, hm])
  · intro t ht
    refine no13_out ?_
    have : kt t ∈ p.tokens.map kt := by rw [← hy.tokens]; exact List.mem_map_of_mem ht
    obtain ⟨u, hu, e⟩ := List.mem_map.1 this
    have e : u.text = t.text := congrArg Prod.snd e
    rw [← e]
    exact h13 u hu
  · rw [respelled_seen hr, ← heq]; exact q5

end Verif.Format
