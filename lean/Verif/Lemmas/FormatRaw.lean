import Verif.Lemmas.FormatSkip
import Verif.Lemmas.FormatEmit
import Verif.Lemmas.LineEnding
import Verif.Spec.Source

/-!
# Source text in the output
-/

namespace Verif.Format
open Verif.Syntax

theorem render_append (x y : List El) : render (x ++ y) = render x ++ render y := by
  induction x with
  | nil => rfl
  | cons e x ih => cases e <;> simp [render, ih]

theorem printEl_plain {e : El} (h : e.isPlain = true) (s : PState) :
    ∃ s' p, printEl s e = (p ++ [e], s') ∧ s'.ind = 0 ∧ s'.space = false ∧
      (s.ind = 0 → s.space = false → p = []) := by
  cases e <;> simp only [El.isPlain] at h <;> try (cases h)
  case rnl =>
    refine ⟨⟨false, false, 0, false, s.sfx⟩, pendingEls s, ?_, rfl, rfl, ?_⟩
    · simp only [printEl, printText_eq]
    · intro h1 h2; simp [pendingEls, h1, h2]
  all_goals
    refine ⟨⟨true, false, 0, false, s.sfx⟩, pendingEls s, ?_, rfl, rfl, ?_⟩
    · simp only [printEl, printText_eq]
    · intro h1 h2; simp [pendingEls, h1, h2]

theorem printEls_plain {r : List El} (h : ∀ e ∈ r, e.isPlain = true) (y : List El) :
    ∀ s : PState, s.ind = 0 → s.space = false → ∃ z, printEls s (r ++ y) = r ++ z := by
  induction r with
  | nil => intro s _ _; exact ⟨_, rfl⟩
  | cons e r ih =>
    intro s h1 h2
    obtain ⟨s', p, h3, h4, h5, h6⟩ := printEl_plain (h e List.mem_cons_self) s
    obtain ⟨z, hz⟩ := ih (fun x hx => h x (List.mem_cons_of_mem _ hx)) s' h4 h5
    refine ⟨z, ?_⟩
    rw [List.cons_append, printEls, h3, h6 h1 h2, hz]
    rfl

theorem printEls_infix {r : List El} (h : ∀ e ∈ r, e.isPlain = true) (y : List El) :
    ∀ (x : List El) (s : PState), r <:+: printEls s (x ++ r ++ y)
  | [], s => by
    cases r with
    | nil => exact List.nil_infix
    | cons e r =>
      obtain ⟨s', p, h3, h4, h5, -⟩ := printEl_plain (h e List.mem_cons_self) s
      obtain ⟨z, hz⟩ := printEls_plain (fun x hx => h x (List.mem_cons_of_mem _ hx)) y s' h4 h5
      refine ⟨p, z, ?_⟩
      rw [List.nil_append, List.cons_append, printEls, h3, hz]
      simp
  | e :: x, s => by
    rw [List.cons_append, List.cons_append, printEls]
    exact infix_right _ (printEls_infix h y x _)

/-- What is written without postponed parts is printed as it is. -/
theorem emit_infix {r x : List El} (h : ∀ e ∈ r, e.isPlain = true) (hx : r <:+: x) :
    r <:+: emit x := by
  obtain ⟨a, b, rfl⟩ := hx
  exact printEls_infix h b a {}

theorem render_infix {r x : List El} (h : r <:+: x) : render r <:+: render x := by
  obtain ⟨a, b, rfl⟩ := h
  exact ⟨render a, render b, by rw [render_append, render_append]⟩

theorem outTok_text {t : Token} (h : ∀ a b, t.text ≠ a ++ 13 :: 10 :: b) :
    (outTok t).text = t.text := by
  unfold outTok
  dsimp only
  split
  · have : LineEnding.findCrlf (13 : Byte) 10 t.text = none :=
      (LineEnding.findCrlf_none_iff _ _ _).mpr (fun ⟨a, b, hab⟩ => h a b hab)
    simp [LineEnding.normalizeRef, LineEnding.infer, this]
  · rfl

theorem render_pieces {ps : List Piece} (h : ∀ p ∈ ps, p.kind = .newline → p.text = [10]) :
    render (ps.map pieceEl) = piecesText ps := by
  induction ps with
  | nil => rfl
  | cons p ps ih =>
    have := ih (fun q hq => h q (List.mem_cons_of_mem _ hq))
    have hp := h p List.mem_cons_self
    have he : render [pieceEl p] = p.text := by
      unfold pieceEl
      split
      · next hk => simp [render, hp hk]
      · simp [render]
      · simp [render]
    have hc : (p :: ps).map pieceEl = [pieceEl p] ++ ps.map pieceEl := rfl
    rw [hc, render_append, he, this]
    rfl

theorem LineFeeds.leading {t : Token} {ts : List Token} (h : LineFeeds ts) (ht : t ∈ ts) :
    render (t.leading.map pieceEl) = piecesText t.leading :=
  render_pieces (fun p hp => (h t ht).1 p (List.mem_append_left _ hp))

theorem LineFeeds.trailing {t : Token} {ts : List Token} (h : LineFeeds ts) (ht : t ∈ ts) :
    render (t.trailing.map pieceEl) = piecesText t.trailing :=
  render_pieces (fun p hp => (h t ht).1 p (List.mem_append_right _ hp))

theorem LineFeeds.sub {ts us : List Token} (h : LineFeeds us) (hs : ∀ t ∈ ts, t ∈ us) :
    LineFeeds ts := fun t ht => h t (hs t ht)

theorem render_rawEls : ∀ (ts : List Token), LineFeeds ts → render (rawEls ts) = nodeText ts
  | [], _ => rfl
  | [t], h => by
    simp only [rawEls, render, nodeText, List.append_nil]
    exact outTok_text (h t List.mem_cons_self).2
  | t :: u :: ts, h => by
    have := render_rawEls (u :: ts) (h.sub (fun x hx => List.mem_cons_of_mem _ hx))
    simp only [rawEls, render, nodeText, render_append, this, h.trailing List.mem_cons_self,
      h.leading (t := u) (by simp), outTok_text (h t List.mem_cons_self).2, List.append_assoc]

theorem render_rawFile (ts : List Token) (eof : Token) (h : LineFeeds (ts ++ [eof])) :
    render (rawFile ts eof) = fileText ts eof := by
  unfold rawFile fileText
  rw [render_append, h.leading (t := eof) (by simp)]
  congr 1
  have h' : LineFeeds ts := h.sub (fun t ht => List.mem_append_left _ ht)
  clear h
  induction ts with
  | nil => rfl
  | cons t ts ih =>
    simp only [List.flatMap_cons, render_append, render, h'.leading List.mem_cons_self,
      h'.trailing List.mem_cons_self, outTok_text (h' t List.mem_cons_self).2,
      ih (h'.sub (fun x hx => List.mem_cons_of_mem _ hx)), List.append_nil]

theorem rawFile_isPlain (ts : List Token) (eof : Token) :
    ∀ e ∈ rawFile ts eof, e.isPlain = true := by
  intro e he
  simp only [rawFile, List.mem_append, List.mem_flatMap, List.mem_map, List.mem_singleton] at he
  rcases he with ⟨t, -, (⟨p, -, rfl⟩ | rfl) | ⟨p, -, rfl⟩⟩ | ⟨p, -, rfl⟩
  · exact pieceEl_isPlain p
  · rfl
  · exact pieceEl_isPlain p
  · exact pieceEl_isPlain p

theorem rawFile_cons (eof : Token) (ts : List Token) : ∀ t : Token,
    ∃ b, rawFile (t :: ts) eof = t.leading.map pieceEl ++ rawEls (t :: ts) ++ b := by
  induction ts with
  | nil => exact fun t =>
    ⟨t.trailing.map pieceEl ++ eof.leading.map pieceEl, by simp [rawFile, rawEls]⟩
  | cons u ts ih =>
    intro t
    obtain ⟨b, hb⟩ := ih u
    have : rawFile (t :: u :: ts) eof = t.leading.map pieceEl ++ [.tok (outTok t)] ++
        t.trailing.map pieceEl ++ rawFile (u :: ts) eof := by simp [rawFile]
    exact ⟨b, by rw [this, hb]; simp [rawEls]⟩

theorem rawFile_eq (eof : Token) {ts : List Token} (h : ts ≠ []) :
    ∃ a b, rawFile ts eof = a ++ rawEls ts ++ b := by
  cases ts with
  | nil => exact absurd rfl h
  | cons t ts => exact ⟨_, rawFile_cons eof ts t⟩

theorem emit_plain {x : List El} (h : ∀ e ∈ x, e.isPlain = true) : emit x = x := by
  have : ∀ s : PState, s.ind = 0 → s.space = false → s.sfx = [] → printEls s x = x := by
    induction x with
    | nil => intro s _ _ h; simp [printEls, flush, h, printSuffixes]
    | cons e x ih =>
      intro s h1 h2 h3
      obtain ⟨s', p, h4, h5, h6, h7⟩ := printEl_plain (h e List.mem_cons_self) s
      have hs : s'.sfx = [] := by
        have := h e List.mem_cons_self
        cases e <;> simp only [El.isPlain] at this <;> try (cases this)
        all_goals
          have := congrArg Prod.snd h4
          simp only [printEl, printText] at this
          rw [← this]
          exact h3
      rw [printEls, h4, h7 h1 h2, ih (fun x hx => h x (List.mem_cons_of_mem _ hx)) s' h5 h6 hs]
      rfl
  exact this {} rfl rfl rfl

end Verif.Format
