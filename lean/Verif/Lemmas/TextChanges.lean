import Verif.Spec.TextChanges
import Verif.Lemmas.LineIndex
import Verif.Lemmas.LineEnding
import Verif.Lemmas.TextEditBuilder

namespace Verif.TextChanges
open Verif.Text Verif.LineIndex Verif.LineEnding

theorem normalize_eq' (x : List Char) :
    normalize '\r' '\n' x = some (replaceCrlf '\r' '\n' x) := normalize_eq _ _ (by decide) x

/-! ## Index reuse -/

/-- The index has the right data for the lines before `L`. -/
def Agree (idx : Index) (t : List Char) (L : Nat) : Prop :=
  ∀ i, i < L → idx[i]? = (LineIndex.new t)[i]?

theorem Agree.offset {idx : Index} {t : List Char} {L : Nat} (h : Agree idx t L) (enc : Encoding)
    (p : Pos) (hp : p.line < L) :
    offsetFromPosition enc idx p = offsetFromPosition enc (LineIndex.new t) p := by
  have := h p.line hp
  cases enc <;> simp [offsetFromPosition, lineColFromPosition, wideAt, this]

theorem Agree.textRange {idx : Index} {t : List Char} {L : Nat} (h : Agree idx t L) (enc : Encoding)
    (r : LRange) (h1 : r.start.line < L) (h2 : r.stop.line < L) :
    textRange enc idx r = textRange enc (LineIndex.new t) r := by
  simp only [LineIndex.textRange, h.offset enc _ h1, h.offset enc _ h2]

theorem textRange_start_line {enc : Encoding} {t a w : List Char} {r : LRange} {s e : Nat}
    (h : textRange enc (LineIndex.new t) r = some (s, e)) (ht : t = a ++ w) (hs : s = size a) :
    r.start.line ≤ a.count '\n' := by
  unfold LineIndex.textRange at h
  split at h
  · rename_i s' e' h1 h2
    split at h
    · simp at h
      obtain ⟨rfl, rfl⟩ := h
      unfold offsetFromPosition at h1
      have hline : (lineColFromPosition enc (LineIndex.new t) r.start).line = r.start.line := by
        cases enc <;> rfl
      simp only [hline, Option.map_eq_some_iff] at h1
      obtain ⟨ln, h3, h4⟩ := h1
      obtain ⟨p, w', h5, h6, h7⟩ := new_get_prefix t _ ln h3
      obtain ⟨m, h8, _⟩ := prefix_of_size_le (h5.symm.trans ht) (by omega)
      rw [h8, List.count_append]; omega
    · simp at h
  · simp at h

theorem changesGo_eq_ref (enc : Encoding) (changes : List Change) (t : List Char) (idx : Index)
    (L : Nat) (hidx : Agree idx t L ∨ idx = LineIndex.new t)
    (hr : ∀ c ∈ changes, ∃ r, c.range = some r ∧ r.start.line ≤ r.stop.line) :
    (changesGo enc changes t idx L).map Prod.fst = refChanges enc changes t := by
  induction changes generalizing t idx L with
  | nil => simp [changesGo, refChanges]
  | cons c rest ih =>
    obtain ⟨r, hcr, hle⟩ := hr c (by simp)
    simp only [changesGo, refChanges, hcr, normalize_eq']
    generalize hidx' : (if r.stop.line ≥ L then LineIndex.new t else idx) = idx'
    have key : textRange enc idx' r = textRange enc (LineIndex.new t) r ∧
        Agree idx' t r.start.line := by
      subst hidx'
      split
      · exact ⟨rfl, fun _ _ => rfl⟩
      · rename_i hL
        rcases hidx with h | h
        · exact ⟨h.textRange enc r (by omega) (by omega), fun i hi => h i (by omega)⟩
        · subst h; exact ⟨rfl, fun _ _ => rfl⟩
    rw [key.1]
    cases htr : textRange enc (LineIndex.new t) r with
    | none => simp
    | some se =>
      obtain ⟨s, e⟩ := se
      simp only [Option.bind_some]
      cases hrep : replaceRange t s e (replaceCrlf '\r' '\n' c.text) with
      | none => simp
      | some t' =>
        simp only [Option.bind_some]
        apply ih
        · left
          obtain ⟨a, d, b, h1, h2, h3, h4⟩ := replaceRange_some hrep
          have hcnt := textRange_start_line htr (by rw [h1, List.append_assoc]) h2
          intro i hi
          rw [key.2 i hi, h1, h4, List.append_assoc, List.append_assoc]
          exact new_agree a _ _ i (by omega)
        · exact fun c hc => hr c (by simp [hc])

theorem lastFull_none {changes : List Change} (h : lastFull changes = none) :
    ∀ c ∈ changes, ∃ r, c.range = some r := by
  induction changes with
  | nil => simp
  | cons c rest ih =>
    simp only [lastFull] at h
    cases hl : lastFull rest with
    | some r => simp [hl] at h
    | none =>
      cases hc : c.range with
      | none => simp [hl, hc] at h
      | some r =>
        intro c' hc'
        rcases List.mem_cons.mp hc' with rfl | hc'
        · exact ⟨r, hc⟩
        · exact ih hl c' hc'

theorem lastFull_some {changes rest : List Change} {text : List Char}
    (h : lastFull changes = some (text, rest)) :
    (∃ pre, changes = pre ++ { range := none, text } :: rest) ∧
      ∀ c ∈ rest, ∃ r, c.range = some r := by
  induction changes with
  | nil => simp [lastFull] at h
  | cons c cs ih =>
    simp only [lastFull] at h
    cases hl : lastFull cs with
    | some r =>
      simp only [hl, Option.some.injEq] at h
      subst h
      obtain ⟨⟨pre, h1⟩, h2⟩ := ih hl
      exact ⟨⟨c :: pre, by rw [h1]; rfl⟩, h2⟩
    | none =>
      cases hc : c.range with
      | some r => simp [hl, hc] at h
      | none =>
        simp [hl, hc] at h
        obtain ⟨rfl, rfl⟩ := h
        exact ⟨⟨[], by cases c; simp_all⟩, lastFull_none hl⟩

theorem refChanges_append {enc : Encoding} (xs ys : List Change) (t : List Char) :
    refChanges enc (xs ++ ys) t = (refChanges enc xs t).bind (refChanges enc ys) := by
  induction xs generalizing t with
  | nil => rfl
  | cons c xs ih =>
    cases hc : c.range with
    | none => simp [refChanges, hc, ih]
    | some r =>
      simp only [List.cons_append, refChanges, hc]
      cases textRange enc (LineIndex.new t) r with
      | none => rfl
      | some se =>
        obtain ⟨s, e⟩ := se
        simp only [Option.bind_some]
        cases replaceRange t s e (replaceCrlf '\r' '\n' c.text) with
        | none => rfl
        | some t' => simp [ih]

theorem apply_of_ref {enc : Encoding} {changes : List Change} {t t' : List Char}
    (hr : ∀ c ∈ changes, ∀ r, c.range = some r → r.start.line ≤ r.stop.line)
    (h : refChanges enc changes t = some t') :
    (applyTextChanges enc t changes (LineIndex.new t)).map Prod.fst = some t' := by
  unfold applyTextChanges
  cases hl : lastFull changes with
  | none =>
    rw [← h]
    exact changesGo_eq_ref enc changes t _ _ (.inr rfl) fun c hc => by
      obtain ⟨r, h1⟩ := lastFull_none hl c hc
      exact ⟨r, h1, hr c hc r h1⟩
  | some p =>
    obtain ⟨text, rest⟩ := p
    obtain ⟨⟨pre, rfl⟩, h2⟩ := lastFull_some hl
    simp only [normalize_eq']
    rw [refChanges_append] at h
    have h3 : refChanges enc rest (replaceCrlf '\r' '\n' text) = some t' := by
      cases hp : refChanges enc pre t with
      | none => simp [hp] at h
      | some t1 => simpa [hp, refChanges] using h
    rw [← h3]
    exact changesGo_eq_ref enc rest _ _ _ (.inl fun i hi => absurd hi (by omega)) fun c hc => by
      obtain ⟨r, h1⟩ := h2 c hc
      exact ⟨r, h1, hr c (by simp [hc]) r h1⟩

/-! ## From the relational specification -/

theorem posOf_line_le (enc : Encoding) (a m : List Char) :
    (posOf enc a).line ≤ (posOf enc (a ++ m)).line := by
  simp [posOf_line, List.count_append]

theorem textRange_posOf (enc : Encoding) (a m b : List Char) :
    textRange enc (LineIndex.new (a ++ m ++ b)) { start := posOf enc a, stop := posOf enc (a ++ m) } =
      some (size a, size a + size m) := by
  have h1 := offset_posOf enc a (m ++ b)
  have h2 := offset_posOf enc (a ++ m) b
  rw [← List.append_assoc] at h1
  simp [LineIndex.textRange, h1, h2, -List.append_assoc]

theorem Steps.ref {enc : Encoding} {t t' : List Char} {cs : List Change} (h : Steps enc t cs t') :
    refChanges enc cs t = some t' ∧
      ∀ c ∈ cs, ∀ r, c.range = some r → r.start.line ≤ r.stop.line := by
  induction h with
  | nil t => simp [refChanges]
  | cons h hs ih =>
    cases h with
    | full t text =>
      refine ⟨by simpa [refChanges] using ih.1, ?_⟩
      intro c hc r hr
      rcases List.mem_cons.mp hc with rfl | hc
      · simp at hr
      · exact ih.2 c hc r hr
    | incremental a m b text =>
      refine ⟨?_, ?_⟩
      · simp only [refChanges, textRange_posOf, Option.bind_some, replaceRange_append]
        exact ih.1
      · intro c hc r hr
        rcases List.mem_cons.mp hc with rfl | hc
        · simp at hr
          subst hr
          exact posOf_line_le enc a m
        · exact ih.2 c hc r hr

/-! ## Editor buffers -/

theorem NoLoneCr.tail {c : Char} {x : List Char} (h : NoLoneCr (c :: x)) : NoLoneCr x := by
  intro p s hx
  exact h (c :: p) s (by simp [hx])

theorem NoLoneCr.head {x : List Char} (h : NoLoneCr ('\r' :: x)) : ∃ y, x = '\n' :: y :=
  h [] x rfl

theorem NoLoneCr.append {a b : List Char} (ha : NoLoneCr a) (hb : NoLoneCr b) :
    NoLoneCr (a ++ b) := by
  intro p s h
  rcases List.append_eq_append_iff.mp h with ⟨m, h1, h2⟩ | ⟨m, h1, h2⟩
  · exact hb m s h2
  · cases m with
    | nil => exact hb [] s (by simpa using h2.symm)
    | cons c m =>
      simp at h2
      obtain ⟨rfl, rfl⟩ := h2
      obtain ⟨s', rfl⟩ := ha p m h1
      exact ⟨s' ++ b, rfl⟩

theorem NoLoneCr.right {a b : List Char} (h : NoLoneCr (a ++ b)) : NoLoneCr b := by
  intro p s hb
  exact h (a ++ p) s (by simp [hb])

theorem NoLoneCr.left {a b : List Char} (h : NoLoneCr (a ++ b)) (hc : Cut a b) : NoLoneCr a := by
  intro p s ha
  obtain ⟨s', h1⟩ := h p (s ++ b) (by simp [ha])
  cases s with
  | nil => exact absurd ⟨⟨p, ha⟩, ⟨s', by simpa using h1⟩⟩ hc
  | cons c s => simp at h1; exact ⟨s, by rw [h1.1]⟩

theorem replaceCrlf_cons_ne (c : Char) (x : List Char) (hc : c ≠ '\r') :
    replaceCrlf '\r' '\n' (c :: x) = c :: replaceCrlf '\r' '\n' x := by
  cases x with
  | nil => rfl
  | cons d x => simp [replaceCrlf, hc]

theorem replaceCrlf_crlf (x : List Char) :
    replaceCrlf '\r' '\n' ('\r' :: '\n' :: x) = '\n' :: replaceCrlf '\r' '\n' x := by
  simp [replaceCrlf]

/-- Induction over texts without lone CR. -/
theorem NoLoneCr.induct {motive : (x : List Char) → NoLoneCr x → Prop}
    (nil : ∀ h, motive [] h)
    (crlf : ∀ x (h : NoLoneCr x) h', motive x h → motive ('\r' :: '\n' :: x) h')
    (cons : ∀ c x, c ≠ '\r' → ∀ (h : NoLoneCr x) h', motive x h → motive (c :: x) h') :
    ∀ x h, motive x h := by
  intro x
  induction hn : x.length using Nat.strongRecOn generalizing x with
  | ind n ih =>
    intro h
    cases x with
    | nil => exact nil h
    | cons c x =>
      by_cases hc : c = '\r'
      · subst hc
        obtain ⟨y, rfl⟩ := h.head
        exact crlf y h.tail.tail h (ih y.length (by simp at hn; omega) y rfl h.tail.tail)
      · exact cons c x hc h.tail h (ih x.length (by simp at hn; omega) x rfl h.tail)

theorem replaceCrlf_append (a b : List Char) (ha : NoLoneCr a) :
    replaceCrlf '\r' '\n' (a ++ b) = replaceCrlf '\r' '\n' a ++ replaceCrlf '\r' '\n' b := by
  induction a, ha using NoLoneCr.induct with
  | nil => rfl
  | crlf x hx _ ih => simp [replaceCrlf_crlf, ih]
  | cons c x hc hx _ ih => simp [replaceCrlf_cons_ne c _ hc, ih]

theorem replaceCrlf_no_cr (a : List Char) (ha : NoLoneCr a) : '\r' ∉ replaceCrlf '\r' '\n' a := by
  induction a, ha using NoLoneCr.induct with
  | nil => simp [replaceCrlf]
  | crlf x hx _ ih => simp [replaceCrlf_crlf, ih]
  | cons c x hc hx _ ih => simp [replaceCrlf_cons_ne c _ hc, ih]; exact fun h => hc h.symm

theorem lspPosGo_eq (enc : Encoding) (a : List Char) (ha : NoLoneCr a) (p : Pos) :
    lspPosGo enc a p = (replaceCrlf '\r' '\n' a).foldl (advance enc) p := by
  induction a, ha using NoLoneCr.induct generalizing p with
  | nil => rfl
  | crlf x hx _ ih => simp [replaceCrlf_crlf, lspPosGo, ih, advance]
  | cons c x hc hx _ ih =>
    rw [replaceCrlf_cons_ne c _ hc]
    by_cases hn : c = '\n'
    · subst hn; simp [lspPosGo, ih, advance]
    · rw [lspPosGo.eq_5 enc p c x (by intro r h _; exact hc h) hc hn, ih]
      simp [advance, hn]

theorem lspPos_eq (enc : Encoding) (a : List Char) (ha : NoLoneCr a) :
    lspPos enc a = posOf enc (replaceCrlf '\r' '\n' a) := lspPosGo_eq enc a ha _

theorem LspStep.step {enc : Encoding} {b b' : List Char} {c : Change} (h : LspStep enc b c b')
    (hb : NoLoneCr b) (hc : NoLoneCr c.text) :
    Step enc (replaceCrlf '\r' '\n' b) c (replaceCrlf '\r' '\n' b') ∧ NoLoneCr b' := by
  cases h with
  | full t text => exact ⟨.full _ _, hc⟩
  | incremental a m w text h1 h2 =>
    have ham : NoLoneCr (a ++ m) := hb.left h2
    have ha : NoLoneCr a := by
      rw [List.append_assoc] at hb; exact hb.left h1
    have hm : NoLoneCr m := ham.right
    have hw : NoLoneCr w := hb.right
    refine ⟨?_, (ha.append hc).append hw⟩
    rw [lspPos_eq enc a ha, lspPos_eq enc _ ham, replaceCrlf_append _ _ ham, replaceCrlf_append _ _ ha,
      replaceCrlf_append _ _ (ha.append hc), replaceCrlf_append _ _ ha]
    exact .incremental _ _ _ _

theorem LspSteps.steps {enc : Encoding} {b b' : List Char} {cs : List Change}
    (h : LspSteps enc b cs b') (hb : NoLoneCr b) (hc : ∀ c ∈ cs, NoLoneCr c.text) :
    Steps enc (replaceCrlf '\r' '\n' b) cs (replaceCrlf '\r' '\n' b') ∧ NoLoneCr b' := by
  induction h with
  | nil t => exact ⟨.nil _, hb⟩
  | cons h hs ih =>
    obtain ⟨h1, h2⟩ := h.step hb (hc _ (by simp))
    obtain ⟨h3, h4⟩ := ih h2 (fun c hcm => hc c (by simp [hcm]))
    exact ⟨.cons h1 h3, h4⟩

/-! ## Batches of edits -/

theorem Steps.snoc {enc : Encoding} {t t' t'' : List Char} {cs : List Change} {c : Change}
    (h : Steps enc t cs t') (h' : Step enc t' c t'') : Steps enc t (cs ++ [c]) t'' := by
  induction h with
  | nil t => exact .cons h' (.nil _)
  | cons h _ ih => exact .cons h (ih h')

def Edit.toChange (e : Edit) : Change := { range := some e.range, text := e.newText }

theorem LfEdits.steps {enc : Encoding} {pre rest new : List Char} {es : List Edit}
    (h : LfEdits enc pre es rest new) :
    Steps enc (pre ++ rest) (es.reverse.map Edit.toChange) (pre ++ new) := by
  induction h with
  | done pre rest => exact .nil _
  | @step pre keep del rest new es e hstart hstop h ih =>
    simp only [List.reverse_cons, List.map_append, List.map_cons, List.map_nil]
    have h1 : pre ++ (keep ++ del ++ rest) = pre ++ keep ++ del ++ rest := by simp
    rw [h1]
    refine ih.snoc ?_
    have h2 : pre ++ (keep ++ replaceCrlf '\r' '\n' e.newText ++ new) =
      pre ++ keep ++ replaceCrlf '\r' '\n' e.newText ++ new := by simp
    have h3 : Edit.toChange e = { range := some { start := posOf enc (pre ++ keep), stop := posOf enc (pre ++ keep ++ del) }, text := e.newText } := by
      rw [← hstart, ← hstop]; rfl
    rw [h2, h3]
    exact .incremental (pre ++ keep) del new e.newText

theorem Pos.lt_trans {a b c : Pos} (h1 : a.lt b) (h2 : b.lt c) : a.lt c := by
  unfold Pos.lt at *; omega

theorem LfEdits.start_lt {enc : Encoding} {pre rest new : List Char} {es : List Edit}
    (h : LfEdits enc pre es rest new) :
    (∀ e ∈ es, ∃ m, e.range.start = posOf enc (pre ++ m)) ∧
    es.Pairwise fun a b => a.range.start = b.range.start ∨ a.range.start.lt b.range.start := by
  induction h with
  | done pre rest => simp
  | @step pre keep del rest new es e hstart hstop h ih =>
    refine ⟨?_, List.Pairwise.cons ?_ ih.2⟩
    · intro e' he'
      rcases List.mem_cons.mp he' with rfl | he'
      · exact ⟨keep, hstart⟩
      · obtain ⟨m, hm⟩ := ih.1 e' he'
        exact ⟨keep ++ del ++ m, by simpa using hm⟩
    · intro e' he'
      obtain ⟨m, hm⟩ := ih.1 e' he'
      rw [hstart, hm, List.append_assoc]
      by_cases hd : del ++ m = []
      · left; rw [hd]; simp
      · right; exact posOf_lt enc _ _ hd

theorem sort_eq_reverse {es es' : List Edit} (hp : es'.Perm es)
    (hs : es'.Pairwise fun a b => a.range.start.lt b.range.start) :
    Sort.stableSort editLe es = es'.reverse := by
  have trans : ∀ a b c, editLe a b = true → editLe b c = true → editLe a c = true := by
    intro a b c; simp [editLe]; omega
  have total : ∀ a b, (editLe a b || editLe b a) = true := by
    intro a b; simp [editLe]; omega
  refine List.Perm.eq_of_pairwise (le := fun a b => editLe a b = true) ?_
    (Sort.stableSort_pairwise trans total es) ?_
    ((Sort.stableSort_perm editLe es).trans (hp.symm.trans (List.reverse_perm _).symm))
  · intro a b ha hb hab hba
    have ha := hp.mem_iff.mpr ((Sort.stableSort_perm editLe es).mem_iff.mp ha)
    have hb := List.mem_reverse.mp hb
    apply Classical.byContradiction
    intro hne
    have := TextEdit.pairwise_forall (R := fun a b : Edit => a.range.start.lt b.range.start ∨ b.range.start.lt a.range.start)
      (fun _ _ h => h.symm) (hs.imp (fun h => .inl h)) ha hb hne
    simp [editLe] at hab hba
    unfold Pos.lt at this
    omega
  · rw [List.pairwise_reverse]
    refine hs.imp ?_
    intro a b h
    unfold Pos.lt at h
    simp [editLe]; omega

/-! ## Edits sent to the editor -/

/-- The editor's version of a text. -/
def conv : Ending → List Char → List Char
  | .lf, x => x
  | .crlf, x => toCrlf '\r' '\n' x

theorem conv_append (e : Ending) (a b : List Char) : conv e (a ++ b) = conv e a ++ conv e b := by
  cases e <;> simp [conv, toCrlf]

theorem toCrlf_noLoneCr (a : List Char) (h : '\r' ∉ a) : NoLoneCr (toCrlf '\r' '\n' a) := by
  induction a with
  | nil => intro p s h; simp [toCrlf] at h
  | cons c a ih =>
    have hc : c ≠ '\r' := fun e => h (by simp [e])
    have ha : '\r' ∉ a := fun e => h (by simp [e])
    rw [toCrlf_cons]
    refine NoLoneCr.append ?_ (ih ha)
    intro p s hp
    split at hp
    · match p, hp with
      | [], hp => simp at hp; exact ⟨[], hp.symm⟩
      | [_], hp => simp at hp
      | _ :: _ :: _, hp => simp at hp
    · match p, hp with
      | [], hp => simp at hp; exact absurd hp.1 hc
      | _ :: _, hp => simp at hp

theorem noLoneCr_of_no_cr (a : List Char) (h : '\r' ∉ a) : NoLoneCr a := by
  rintro p s rfl
  simp at h

theorem replaceCrlf_of_no_cr (a : List Char) (h : '\r' ∉ a) : replaceCrlf '\r' '\n' a = a := by
  induction a with
  | nil => rfl
  | cons c a ih =>
    rw [replaceCrlf_cons_ne c a (fun e => h (by simp [e])), ih (fun e => h (by simp [e]))]

theorem conv_noLoneCr (e : Ending) (a : List Char) (h : '\r' ∉ a) : NoLoneCr (conv e a) := by
  cases e
  · exact noLoneCr_of_no_cr a h
  · exact toCrlf_noLoneCr a h

theorem replaceCrlf_conv (e : Ending) (a : List Char) (h : '\r' ∉ a) :
    replaceCrlf '\r' '\n' (conv e a) = a := by
  cases e
  · exact replaceCrlf_of_no_cr a h
  · exact replaceCrlf_toCrlf _ _ (by decide) a

theorem lspPos_conv (enc : Encoding) (e : Ending) (a : List Char) (h : '\r' ∉ a) :
    lspPos enc (conv e a) = posOf enc a := by
  rw [lspPos_eq enc _ (conv_noLoneCr e a h), replaceCrlf_conv e a h]

theorem Cut.of_noLoneCr {a b : List Char} (h : NoLoneCr a) : Cut a b := by
  rintro ⟨⟨q, rfl⟩, _⟩
  obtain ⟨s, hs⟩ := h q [] rfl
  simp at hs

open TextEdit in
theorem Edits.lsp {enc : Encoding} {ending : Ending} {is : List TextEdit.Indel} {p : Nat}
    {pre rest new : List Char} (h : Edits p is rest new) (hp : p = size pre)
    (hcr : '\r' ∉ pre ++ rest) :
    ∃ es, textEditVec enc (LineIndex.new (pre ++ rest)) ending is = some es ∧
      LspEdits enc (conv ending pre) es (conv ending rest) (conv ending new) := by
  induction h generalizing pre with
  | done p rest => exact ⟨[], rfl, .done _ _⟩
  | @step p keep del rest new i is hstart hstop h ih =>
    have e1 : pre ++ (keep ++ del ++ rest) = pre ++ keep ++ del ++ rest := by simp
    rw [e1] at hcr ⊢
    have n1 : '\r' ∉ pre ++ keep := fun hm =>
      hcr (List.mem_append_left _ (List.mem_append_left _ hm))
    have n2 : '\r' ∉ pre ++ keep ++ del := fun hm => hcr (List.mem_append_left _ hm)
    obtain ⟨es, h1, h2⟩ := ih (pre := pre ++ keep ++ del) (by simp [hp]; omega) hcr
    have p1 := position_size enc (pre ++ keep) (del ++ rest)
    have p2 := position_size enc (pre ++ keep ++ del) rest
    rw [← List.append_assoc] at p1
    have s1 : i.delete.start = size (pre ++ keep) := by simp [hstart, hp]
    have s2 : i.delete.stop = size (pre ++ keep ++ del) := by simp [hstop, hp]; omega
    refine ⟨{ range := { start := posOf enc (pre ++ keep), stop := posOf enc (pre ++ keep ++ del) }, newText := conv ending i.insert } :: es, ?_, ?_⟩
    · have : textEdit enc (LineIndex.new (pre ++ keep ++ del ++ rest)) ending i = some { range := { start := posOf enc (pre ++ keep), stop := posOf enc (pre ++ keep ++ del) }, newText := conv ending i.insert } := by
        simp only [textEdit, LineIndex.range, s1, s2, p1, p2, Option.map_some]
        cases ending <;> rfl
      simp only [textEditVec, List.mapM_cons, this]
      simp only [textEditVec] at h1
      rw [h1]; rfl
    · simp only [conv_append] at h2 ⊢
      refine .step ?_ ?_ ?_ ?_ h2
      · rw [← conv_append]; exact Cut.of_noLoneCr (conv_noLoneCr ending _ n1)
      · rw [← conv_append, ← conv_append]; exact Cut.of_noLoneCr (conv_noLoneCr ending _ n2)
      · rw [← conv_append, lspPos_conv enc ending _ n1]
      · rw [← conv_append, ← conv_append, lspPos_conv enc ending _ n2]

/-- A buffer whose LF form is `x ++ y` splits into buffers for `x` and `y`. -/
theorem split_of_replaceCrlf {b : List Char} (hb : NoLoneCr b) :
    ∀ {x y}, replaceCrlf '\r' '\n' b = x ++ y →
      ∃ b1 b2, b = b1 ++ b2 ∧ NoLoneCr b1 ∧ NoLoneCr b2 ∧ replaceCrlf '\r' '\n' b1 = x ∧
        replaceCrlf '\r' '\n' b2 = y := by
  induction b, hb using NoLoneCr.induct with
  | nil h =>
    intro x y hxy
    obtain ⟨rfl, rfl⟩ := List.append_eq_nil_iff.1 (show x ++ y = [] from hxy.symm)
    exact ⟨[], [], rfl, h, h, rfl, rfl⟩
  | crlf b h h' ih =>
    intro x y hxy
    rw [replaceCrlf_crlf] at hxy
    cases x with
    | nil => exact ⟨[], _, rfl, noLoneCr_of_no_cr [] (by simp), h', rfl, by
        rw [replaceCrlf_crlf]; exact hxy⟩
    | cons c x =>
      rw [List.cons_append, List.cons.injEq] at hxy
      obtain ⟨rfl, hxy⟩ := hxy
      obtain ⟨b1, b2, rfl, h1, h2, h3, h4⟩ := ih hxy
      refine ⟨'\r' :: '\n' :: b1, b2, rfl, ?_, h2, by rw [replaceCrlf_crlf, h3], h4⟩
      have := toCrlf_noLoneCr ['\n'] (by simp)
      exact NoLoneCr.append this h1
  | cons c b hc h h' ih =>
    intro x y hxy
    rw [replaceCrlf_cons_ne c b hc] at hxy
    cases x with
    | nil => exact ⟨[], _, rfl, noLoneCr_of_no_cr [] (by simp), h', rfl, by
        rw [replaceCrlf_cons_ne c b hc]; exact hxy⟩
    | cons d x =>
      rw [List.cons_append, List.cons.injEq] at hxy
      obtain ⟨rfl, hxy⟩ := hxy
      obtain ⟨b1, b2, rfl, h1, h2, h3, h4⟩ := ih hxy
      refine ⟨c :: b1, b2, rfl, ?_, h2, by rw [replaceCrlf_cons_ne c _ hc, h3], h4⟩
      exact NoLoneCr.append (a := [c]) (noLoneCr_of_no_cr [c] (by simp [Ne.symm hc])) h1

open TextEdit in
/-- Edits computed on the LF form of a buffer, whose line ends may be mixed. -/
theorem Edits.lsp_any {enc : Encoding} {ending : Ending} {is : List TextEdit.Indel} {p : Nat}
    {pre rest new : List Char} (h : Edits p is rest new) (hp : p = size pre) (hnew : '\r' ∉ new)
    {preB restB : List Char} (hpre : NoLoneCr preB) (hrest : NoLoneCr restB)
    (h1 : replaceCrlf '\r' '\n' preB = pre) (h2 : replaceCrlf '\r' '\n' restB = rest) :
    ∃ es newB, textEditVec enc (LineIndex.new (pre ++ rest)) ending is = some es ∧
      LspEdits enc preB es restB newB ∧ replaceCrlf '\r' '\n' newB = new ∧ NoLoneCr newB := by
  induction h generalizing pre preB restB with
  | done p rest => exact ⟨[], restB, rfl, .done _ _, h2, hrest⟩
  | @step p keep del rest new i is hstart hstop h ih =>
    obtain ⟨kd, rB, rfl, hkd, hrB, h3, h4⟩ := split_of_replaceCrlf hrest h2
    obtain ⟨kB, dB, rfl, hkB, hdB, h5, h6⟩ := split_of_replaceCrlf hkd h3
    have e1 : pre ++ (keep ++ del ++ rest) = pre ++ keep ++ del ++ rest := by simp
    rw [e1]
    have hk : NoLoneCr (preB ++ kB) := hpre.append hkB
    have hd : NoLoneCr (preB ++ kB ++ dB) := hk.append hdB
    have rk : replaceCrlf '\r' '\n' (preB ++ kB) = pre ++ keep := by
      rw [replaceCrlf_append _ _ hpre, h1, h5]
    have rd : replaceCrlf '\r' '\n' (preB ++ kB ++ dB) = pre ++ keep ++ del := by
      rw [replaceCrlf_append _ _ hk, rk, h6]
    obtain ⟨es, newB, h7, h8, h9, h10⟩ := ih (pre := pre ++ keep ++ del) (by simp [hp]; omega)
      (fun hm => hnew (by simp [hm])) hd hrB rd h4
    have hins : '\r' ∉ i.insert := fun hm => hnew (by simp [hm])
    have p1 := position_size enc (pre ++ keep) (del ++ rest)
    have p2 := position_size enc (pre ++ keep ++ del) rest
    rw [← List.append_assoc] at p1
    have s1 : i.delete.start = size (pre ++ keep) := by simp [hstart, hp]
    have s2 : i.delete.stop = size (pre ++ keep ++ del) := by simp [hstop, hp]; omega
    have hi := conv_noLoneCr ending _ hins
    refine ⟨{ range := { start := posOf enc (pre ++ keep), stop := posOf enc (pre ++ keep ++ del) }, newText := conv ending i.insert } :: es, kB ++ conv ending i.insert ++ newB, ?_, ?_, ?_, ?_⟩
    · have : textEdit enc (LineIndex.new (pre ++ keep ++ del ++ rest)) ending i = some { range := { start := posOf enc (pre ++ keep), stop := posOf enc (pre ++ keep ++ del) }, newText := conv ending i.insert } := by
        simp only [textEdit, LineIndex.range, s1, s2, p1, p2, Option.map_some]
        cases ending <;> rfl
      simp only [textEditVec, List.mapM_cons, this]
      simp only [textEditVec] at h7
      rw [h7]; rfl
    · refine .step (Cut.of_noLoneCr hk) (Cut.of_noLoneCr hd) ?_ ?_ h8
      · rw [lspPos_eq enc _ hk, rk]
      · rw [lspPos_eq enc _ hd, rd]
    · rw [replaceCrlf_append _ _ (hkB.append hi), replaceCrlf_append _ _ hkB, h5, h9,
        replaceCrlf_conv ending _ hins]
    · exact (hkB.append hi).append h10

end Verif.TextChanges
