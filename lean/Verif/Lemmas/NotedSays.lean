import Verif.Lemmas.NotedSay

/-!
# The program with comments (continued)
-/

namespace Verif.Format
open Verif.Syntax

variable {o : Opts} {N : Nat}

theorem sel_stmts (k : SelKind) : isStmts k.node = false := by cases k <;> rfl
theorem call_stmts (k : CallKind) : isStmts k.node = false := by cases k <;> rfl
theorem args_stmts (k : CallKind) : isStmts k.args = false := by cases k <;> rfl
theorem arg_stmts (call : Bool) : isStmts (if call then Kind.rArgument else .rParameter) = false := by cases call <;> rfl

theorem quiet_led : (({} : Ann)).Led o := ⟨rfl, rfl, nofun⟩

theorem bare_nil {es : Exprs} (h : es ≠ .nil) : ∃ e es', es = .cons e es' := by
  cases es with
  | nil => exact absurd rfl h
  | cons e es' => exact ⟨e, es', rfl⟩

theorem note_of {e : Expr} (hs : e.Simple o) (h : e.bare.IsNote o N) (ht : ∀ t ∈ e.tokens, Trim t) :
    ∃ n c, e = noteExpr N n c ∧ idle o c := by
  cases e <;> try exact h.elim
  rename_i a k t
  obtain ⟨h1, h2, c, h3, h4⟩ := h
  have h5 := ht t (by simp [Expr.tokens])
  refine ⟨linesBeforeToken t, c, ?_, h4⟩
  obtain ⟨rfl, -, -⟩ := hs
  have h6 : t = noteToken N (linesBeforeToken t) c := by
    have h7 : t.text = noteText N c := h5.2.symm.trans h3
    have h8 : t.kind = .ident := h2
    conv => lhs; rw [← h5.1]
    simp only [hush, fresh, noteToken, h7, h8]
  rw [noteExpr, ← h6]
  have h1 : k = .rIdentifier := h1
  rw [h1]

theorem raw_note (n : Nat) (c : List Byte) :
    (rawTok (noteToken N n c)).map (El.tell N) = (List.replicate n nlPiece ++ [(⟨.comment, c⟩ : Piece)]).map pieceEl := by
  have h : outTok (noteToken N n c) = noteTok N c := rfl
  rw [rawTok, h]
  simp only [noteToken, List.map_append, List.map_cons, List.map_nil, List.append_nil, tell_note]
  rw [tell_pieces]
  rfl

theorem note_len (n : Nat) (c : List Byte) : N < (outTok (noteToken N n c)).text.length := by
  show N < (noteText N c).length
  simp only [noteText, List.length_append, List.length_replicate]
  omega

mutual
theorem said_expr : (e0 : Expr) → ∀ {w f : Bool}, e0.Simple o → e0.bare.Aired o N w → Neatly N f e0.tokens →
    ∃ e, SaidE o N w e0 e
  | .atom a k t, w, f, hs, ha, hn => by
    obtain ⟨rfl, -, h2⟩ := hs
    have ht := hn.head
    have hl : Short N t := len_short ha
    refine ⟨.atom {} k t, rfl, ?_, ⟨quiet_led, hl, h2⟩, ?_, ⟨t, [], [], rfl, rfl, ht⟩, told_one ht hl, fun _ => rfl⟩
    · simp only [Expr.voiced, ht.fix]
    · exact ⟨ht.trailing, fun _ => ht.quiet, trivial⟩
  | .str a p c l, w, f, hs, ha, hn => by
    obtain ⟨rfl, -, -, -⟩ := hs
    have hp := hn.head
    have hsp : Short N p := len_short ha.1
    have hl : Trim l := hn.trim l (by simp [Expr.tokens])
    have hsl : Short N l := len_short ha.2.2
    cases c with
    | none =>
      refine ⟨.str {} p none l, rfl, ?_, ⟨quiet_led, hsp, nofun, hsl⟩, ?_, ⟨p, _, _, rfl, rfl, hp⟩,
        (told_one hl hsl).cons hp hsp, fun _ => rfl⟩
      · simp only [Expr.voiced, hp.fix, hl.fix, Option.map_none]
      · exact put_tok hp (put_one hl)
    | some c =>
      have hc : Trim c := hn.trim c (by simp [Expr.tokens])
      have hsc : Short N c := len_short (ha.2.1 _ rfl)
      refine ⟨.str {} p (some c) l, rfl, ?_, ⟨quiet_led, hsp, by
          intro u hu
          cases hu
          exact hsc, hsl⟩, ?_, ⟨p, _, _, rfl, rfl, hp⟩,
        ((told_one hl hsl).cons hc hsc).cons hp hsp, fun _ => rfl⟩
      · simp only [Expr.voiced, hp.fix, hl.fix, hc.fix, Option.map_some]
      · exact put_tok hp (put_tok hc (put_one hl))
  | .paren a l e r, w, f, hs, ha, hn => by
    obtain ⟨rfl, -, hs, -⟩ := hs
    obtain ⟨hl, ha, hr⟩ := ha
    have htl := hn.head
    have htr : Trim r := hn.trim r (by simp [Expr.tokens])
    obtain ⟨e', h⟩ := said_expr e hs ha (hn.tail (f' := false)).left
    refine ⟨.paren {} l e' r, rfl, ?_, ⟨quiet_led, len_short hl, h.ann, h.direct, h.noted, len_short hr⟩, ?_,
      ⟨l, _, _, rfl, rfl, htl⟩, (h.told.append (told_one htr (len_short hr))).cons htl (len_short hl), ?_⟩
    · simp only [Expr.voiced, htl.fix, h.voiced, htr.fix]
    · exact put_tok htl (h.sub (put_one htr))
    · intro hw; simp only [Expr.comments, h.mute hw]; rfl
  | .braced a l es r, w, f, hs, ha, hn => by
    obtain ⟨rfl, -, hs, -⟩ := hs
    obtain ⟨hl, hc, ha, hr⟩ := ha
    have htl := hn.head
    have htr : Trim r := hn.trim r (by simp [Expr.tokens])
    obtain ⟨es', h⟩ := said_exprs es (f := false) (P := []) hs ha (hn.tail (f' := false)).left trivial (by simp) nofun nofun
    have hv : es'.voiced N = es := h.voiced
    refine ⟨.braced {} l es' r, rfl, ?_, ⟨quiet_led, len_short hl, ?_, h.noted, len_short hr⟩, ?_,
      ⟨l, _, _, rfl, rfl, htl⟩, Told.cons htl (len_short hl) (Told.append ⟨h.trail, ?_, h.own0 rfl⟩ (told_one htr (len_short hr))), ?_⟩
    · simp only [Expr.voiced, htl.fix, hv, htr.fix]
    · exact cup_voiced h.noted (by rw [hv]; exact hc)
    · exact ⟨htl.trailing, nofun, put_first _ (h.put r htr)⟩
    · exact h.text
    · intro hw; simp only [Expr.comments, h.mute hw]; rfl
  | .unary a p e, w, f, hs, ha, hn => by
    obtain ⟨rfl, -, hs⟩ := hs
    obtain ⟨hl, ha⟩ := ha
    have htl := hn.head
    obtain ⟨e', h⟩ := said_expr e hs ha (hn.tail (f' := false))
    refine ⟨.unary {} p e', rfl, ?_, ⟨quiet_led, len_short hl, h.ann, h.noted⟩, ?_,
      ⟨p, _, _, rfl, rfl, htl⟩, h.told.cons htl (len_short hl), ?_⟩
    · simp only [Expr.voiced, htl.fix, h.voiced]
    · exact put_tok htl h.last
    · intro hw; simp only [Expr.comments, h.mute hw]; rfl
  | .binary a x p y, w, f, hs, ha, hn => by
    obtain ⟨rfl, hs1, -, hs2⟩ := hs
    obtain ⟨ha1, hp, ha2⟩ := ha
    have htp : Trim p := hn.trim p (by simp [Expr.tokens])
    obtain ⟨x', h1⟩ := said_expr x hs1 ha1 hn.left
    obtain ⟨y', h2⟩ := said_expr y hs2 ha2 (hn.right.tail (f' := false))
    refine ⟨.binary {} x' p y', rfl, ?_, ⟨quiet_led, h1.ann, h1.noted, len_short hp, h2.aside, h2.noted⟩, ?_,
      h1.begins _ _, h1.told.append (h2.told.cons htp (len_short hp)), ?_⟩
    · simp only [Expr.voiced, htp.fix, h1.voiced, h2.voiced]
    · exact h1.sub (put_tok htp h2.last)
    · intro hw; simp only [Expr.comments, h1.mute hw, h2.mute hw]; rfl
  | .sel a k x p y, w, f, hs, ha, hn => by
    obtain ⟨rfl, hs1, -, hs2, hk⟩ := hs
    obtain ⟨ha1, hp, ha2⟩ := ha
    have htp : Trim p := hn.trim p (by simp [Expr.tokens])
    obtain ⟨x', h1⟩ := said_expr x hs1 ha1 hn.left
    obtain ⟨y', h2⟩ := said_expr y hs2 ha2 (hn.right.tail (f' := false))
    refine ⟨.sel {} k x' p y', rfl, ?_, ⟨quiet_led, h1.ann, h1.noted, len_short hp, h2.ann, h2.noted, ?_⟩, ?_,
      h1.begins _ _, h1.told.append (h2.told.cons htp (len_short hp)), ?_⟩
    · simp only [Expr.voiced, htp.fix, h1.voiced, h2.voiced]
    · intro h; rw [← voiced_isTerminal (N := N) y' hush, h2.voiced]; exact hk h
    · rw [Expr.aview, AView.Put, sel_stmts]; exact h1.sub (put_tok htp h2.last)
    · intro hw; simp only [Expr.comments, h1.mute hw, h2.mute hw]; rfl
  | .call a k g aa l items r, w, f, hs, ha, hn => by
    obtain ⟨rfl, rfl, hli, hs1, -, hs2, -⟩ := hs
    obtain ⟨ha1, hl, ha2, hr⟩ := ha
    have htl : Trim l := hn.trim l (by simp [Expr.tokens])
    have htr : Trim r := hn.trim r (by simp [Expr.tokens])
    obtain ⟨g', h1⟩ := said_expr g hs1 ha1 hn.left
    obtain ⟨xs', h2⟩ := said_items items hs2 ha2 (hn.right.tail (f' := false)).left
    refine ⟨.call {} k g' {} l xs' r, rfl, ?_, ⟨quiet_led, rfl, ?_, h1.ann, h1.noted, len_short hl, h2.noted, len_short hr,
      htr.quiet⟩, ?_, h1.begins _ _,
      h1.told.append ((h2.told.append (told_one htr (len_short hr))).cons htl (len_short hl)), ?_⟩
    · simp only [Expr.voiced, htl.fix, htr.fix, h1.voiced, h2.voiced]
    · rw [← voiced_listed (N := N) mild_hush g', h1.voiced]; exact hli
    · rw [Expr.aview, AView.Put, call_stmts]
      refine h1.sub (put_sub ?_ rfl ?_ trivial)
      · rw [AView.Put, args_stmts]
        exact put_tok htl (h2.put _ _ _ _ htr)
      · intro t ht
        cases ht
        exact htl.quiet
    · intro hw; simp only [Expr.comments, h1.mute hw, h2.mute hw]; rfl
  | .func a kw pa l items r b, w, f, hs, ha, hn => by
    obtain ⟨rfl, rfl, -, -, hs1, -, hs2⟩ := hs
    obtain ⟨hk, hl, ha1, hr, ha2⟩ := ha
    have htk := hn.head
    have htl : Trim l := hn.trim l (by simp [Expr.tokens])
    have htr : Trim r := hn.trim r (by simp [Expr.tokens])
    have hn1 := (hn.tail (f' := false)).tail (f' := false)
    obtain ⟨xs', h1⟩ := said_items items hs1 ha1 hn1.left
    obtain ⟨b', h2⟩ := said_expr b hs2 ha2 (hn1.right.tail (f' := false))
    refine ⟨.func {} kw {} l xs' r b', rfl, ?_, ⟨quiet_led, rfl, len_short hk, len_short hl, h1.mute rfl, h1.noted,
      len_short hr, h2.aside, h2.noted⟩, ?_, ⟨kw, _, _, rfl, rfl, htk⟩,
      ((h1.told.append (h2.told.cons htr (len_short hr))).cons htl (len_short hl)).cons htk (len_short hk), ?_⟩
    · simp only [Expr.voiced, htk.fix, htl.fix, htr.fix, h1.voiced, h2.voiced]
    · refine put_tok htk (put_sub ?_ rfl ?_ h2.last)
      · exact put_tok htl (h1.put _ _ _ _ htr)
      · intro t ht
        cases ht
        exact htl.quiet
    · intro hw; simp only [Expr.comments, h1.mute rfl, h2.mute hw]; rfl
  | .ite a kw l c r t, w, f, hs, ha, hn => by
    obtain ⟨rfl, -, -, hs1, -, hs2⟩ := hs
    obtain ⟨hk, hl, ha1, hr, ha2⟩ := ha
    have htk := hn.head
    have htl : Trim l := hn.trim l (by simp [Expr.tokens])
    have htr : Trim r := hn.trim r (by simp [Expr.tokens])
    have hn1 := (hn.tail (f' := false)).tail (f' := false)
    obtain ⟨c', h1⟩ := said_expr c hs1 ha1 hn1.left
    obtain ⟨t', h2⟩ := said_expr t hs2 ha2 (hn1.right.tail (f' := false))
    refine ⟨.ite {} kw l c' r t', rfl, ?_, ⟨quiet_led, len_short hk, len_short hl, h1.ann, h1.noted,
      len_short hr, h2.aside, h2.noted⟩, ?_, ⟨kw, _, _, rfl, rfl, htk⟩,
      ((h1.told.append (h2.told.cons htr (len_short hr))).cons htl (len_short hl)).cons htk (len_short hk), ?_⟩
    · simp only [Expr.voiced, htk.fix, htl.fix, htr.fix, h1.voiced, h2.voiced]
    · exact put_tok htk (put_tok htl (h1.sub (put_tok htr h2.last)))
    · intro hw; simp only [Expr.comments, h1.mute hw, h2.mute hw]; rfl
  | .itee a kw l c r t ea el e, w, f, hs, ha, hn => by
    obtain ⟨rfl, rfl, -, -, hs1, -, hs2, -, hs3⟩ := hs
    obtain ⟨hk, hl, ha1, hr, ha2, he, ha3⟩ := ha
    have htk := hn.head
    have htl : Trim l := hn.trim l (by simp [Expr.tokens])
    have htr : Trim r := hn.trim r (by simp [Expr.tokens])
    have hte : Trim el := hn.trim el (by simp [Expr.tokens])
    have hn1 := (hn.tail (f' := false)).tail (f' := false)
    have hn2 := hn1.right.tail (f' := false)
    obtain ⟨c', h1⟩ := said_expr c hs1 ha1 hn1.left
    obtain ⟨t', h2⟩ := said_expr t hs2 ha2 hn2.left
    obtain ⟨e', h3⟩ := said_expr e hs3 ha3 (hn2.right.tail (f' := false))
    refine ⟨.itee {} kw l c' r t' {} el e', rfl, ?_, ⟨quiet_led, rfl, len_short hk, len_short hl, h1.ann, h1.noted,
      len_short hr, h2.aside, h2.noted, len_short he, hte.quiet, h3.aside, h3.noted⟩, ?_, ⟨kw, _, _, rfl, rfl, htk⟩,
      ((h1.told.append ((h2.told.append (h3.told.cons hte (len_short he))).cons htr (len_short hr))).cons htl
        (len_short hl)).cons htk (len_short hk), ?_⟩
    · simp only [Expr.voiced, htk.fix, htl.fix, htr.fix, hte.fix, h1.voiced, h2.voiced, h3.voiced]
    · refine put_tok htk (put_tok htl (h1.sub (put_tok htr (h2.sub (put_sub ?_ rfl ?_ trivial)))))
      · exact put_tok hte h3.last
      · intro t ht
        cases ht
        exact hte.quiet
    · intro hw; simp only [Expr.comments, h1.mute hw, h2.mute hw, h3.mute hw]; rfl
  | .for_ a kw l v i s r b, w, f, hs, ha, hn => by
    obtain ⟨rfl, -, -, hs1, -, hs2, -, hs3⟩ := hs
    obtain ⟨hk, hl, ha1, hi, ha2, hr, ha3⟩ := ha
    have htk := hn.head
    have htl : Trim l := hn.trim l (by simp [Expr.tokens])
    have htr : Trim r := hn.trim r (by simp [Expr.tokens])
    have hti : Trim i := hn.trim i (by simp [Expr.tokens])
    have hn1 := (hn.tail (f' := false)).tail (f' := false)
    have hn2 := hn1.right.tail (f' := false)
    obtain ⟨v', h1⟩ := said_expr v hs1 ha1 hn1.left
    obtain ⟨s', h2⟩ := said_expr s hs2 ha2 hn2.left
    obtain ⟨b', h3⟩ := said_expr b hs3 ha3 (hn2.right.tail (f' := false))
    refine ⟨.for_ {} kw l v' i s' r b', rfl, ?_, ⟨quiet_led, len_short hk, len_short hl, h1.ann, h1.noted, len_short hi,
      h2.ann, h2.noted, len_short hr, h3.ann, h3.noted⟩, ?_, ⟨kw, _, _, rfl, rfl, htk⟩,
      ((h1.told.append ((h2.told.append (h3.told.cons htr (len_short hr))).cons hti (len_short hi))).cons htl
        (len_short hl)).cons htk (len_short hk), ?_⟩
    · simp only [Expr.voiced, htk.fix, htl.fix, htr.fix, hti.fix, h1.voiced, h2.voiced, h3.voiced]
    · exact put_tok htk (put_tok htl (h1.sub (put_tok hti (h2.sub (put_tok htr h3.last)))))
    · intro hw; simp only [Expr.comments, h1.mute hw, h2.mute hw, h3.mute hw]; rfl
  | .while_ a kw l c r b, w, f, hs, ha, hn => by
    obtain ⟨rfl, -, -, hs1, -, hs2⟩ := hs
    obtain ⟨hk, hl, ha1, hr, ha2⟩ := ha
    have htk := hn.head
    have htl : Trim l := hn.trim l (by simp [Expr.tokens])
    have htr : Trim r := hn.trim r (by simp [Expr.tokens])
    have hn1 := (hn.tail (f' := false)).tail (f' := false)
    obtain ⟨c', h1⟩ := said_expr c hs1 ha1 hn1.left
    obtain ⟨b', h2⟩ := said_expr b hs2 ha2 (hn1.right.tail (f' := false))
    refine ⟨.while_ {} kw l c' r b', rfl, ?_, ⟨quiet_led, len_short hk, len_short hl, h1.ann, h1.noted,
      len_short hr, h2.ann, h2.noted⟩, ?_, ⟨kw, _, _, rfl, rfl, htk⟩,
      ((h1.told.append (h2.told.cons htr (len_short hr))).cons htl (len_short hl)).cons htk (len_short hk), ?_⟩
    · simp only [Expr.voiced, htk.fix, htl.fix, htr.fix, h1.voiced, h2.voiced]
    · exact put_tok htk (put_tok htl (h1.sub (put_tok htr h2.last)))
    · intro hw; simp only [Expr.comments, h1.mute hw, h2.mute hw]; rfl
  | .repeat_ a kw b, w, f, hs, ha, hn => by
    obtain ⟨rfl, -, hs⟩ := hs
    obtain ⟨hl, ha⟩ := ha
    have htl := hn.head
    obtain ⟨e', h⟩ := said_expr b hs ha (hn.tail (f' := false))
    refine ⟨.repeat_ {} kw e', rfl, ?_, ⟨quiet_led, len_short hl, h.ann, h.noted⟩, ?_,
      ⟨kw, _, _, rfl, rfl, htl⟩, h.told.cons htl (len_short hl), ?_⟩
    · simp only [Expr.voiced, htl.fix, h.voiced]
    · exact put_tok htl h.last
    · intro hw; simp only [Expr.comments, h.mute hw]; rfl
theorem said_exprs : (es0 : Exprs) → ∀ {w f : Bool} {P : List (Nat × List Byte)}, es0.Simple o → es0.bare.Aired o N w →
    Neatly N (f && P.isEmpty) es0.tokens → GapOk (linesBefore es0.tokens) P → (P ≠ [] → es0 ≠ .nil ∧ w = true) →
    (∀ p ∈ P, idle o p.2) → (f = false → ∀ p ∈ P.head?, 1 ≤ p.1) → ∃ es, SaidS o N w f P es0 es
  | .nil, w, f, P, hs, ha, hn, hg, hp, hi, hh => by
    have hP : P = [] := by
      apply Classical.byContradiction
      intro h
      exact (hp h).1 rfl
    subst hP
    refine ⟨.nil, rfl, trivial, ?_, nofun, rfl, nofun, fun _ => nofun, fun _ => rfl⟩
    intro r hr
    exact ⟨hr.trailing, fun _ => hr.quiet, trivial⟩
  | .cons e es, w, f, P, hs, ha, hn, hg, hp, hi, hh => by
    rcases ha with ⟨ha1 | ha1, ha2⟩
    · obtain ⟨ha0, rfl, ha3⟩ := ha1
      have ht : ∀ t ∈ e.tokens, Trim t := fun t ht => hn.trim t (by simp [Exprs.tokens, ht])
      obtain ⟨n, c, rfl, hc⟩ := note_of hs.1 ha0 ht
      have ht1 : (Exprs.cons (noteExpr N n c) es).tokens = noteToken N n c :: es.tokens := rfl
      rw [ht1] at hn hg
      have hn0 : linesBeforeToken (noteToken N n c) = n := fresh_lines n (noteToken N n c)
      have hg0 : GapOk n P := by rw [← hn0]; exact hg
      obtain ⟨e1, es1, rfl⟩ := bare_nil (es := es) (fun h => ha3 (by rw [h]; rfl))
      obtain ⟨u, us, -, h1, -⟩ := voiced_head (N := N) e1 hush
      have ht2 : (Exprs.cons e1 es1).tokens = u :: (us ++ es1.tokens) := by rw [Exprs.tokens, h1]; rfl
      have hu := hn.next [] (noteToken N n c) u (us ++ es1.tokens) (by rw [ht2]; rfl) (note_len n c)
      obtain ⟨es', h⟩ := said_exprs (.cons e1 es1) (w := true) (f := f) (P := P ++ [(n, c)]) hs.2 ha2 hn.tail
        (by rw [ht2]; exact gapOk_snoc hu hg0) (fun _ => ⟨by simp, rfl⟩) (by
          intro p hp
          rcases List.mem_append.1 hp with hp | hp
          · exact hi p hp
          · cases List.mem_singleton.1 hp; exact hc) (by
          intro hf p hp
          cases P with
          | cons q P => exact hh hf p hp
          | nil =>
            cases hp
            subst hf
            rcases hn.own [] _ _ rfl (note_len n c) with h | h
            · exact absurd h.1 (by simp)
            · rw [hn0] at h; exact h)
      refine ⟨es', ?_, h.noted, h.put, h.trail, ?_, h.own, h.own0, nofun⟩
      · rw [h.voiced, voices_snoc]
      · have h3 := h.text
        rw [h3, ht1]
        simp only [raws, List.flatMap_cons, List.map_append, raw_note, pieces, List.flatMap_append, List.flatMap_nil,
          List.append_nil, List.append_assoc]
    · obtain ⟨e', h1⟩ := said_expr e hs.1 ha1 hn.left
      obtain ⟨t, ts, ts0, h2, h3, h4⟩ := h1.head
      have hn1 : Neatly N false es.tokens := by
        have := hn
        rw [Exprs.tokens, h3] at this
        exact (this.tail (f' := false)).right
      obtain ⟨es', h5⟩ := said_exprs es (w := w) (f := false) (P := []) hs.2 ha2 hn1 trivial (by simp) nofun nofun
      have hg : GapOk (linesBeforeToken t) P := by
        rw [Exprs.tokens, h3] at hg; exact hg
      have h6 : ((e'.lead (pieces P)).withAnn (led (pieces P ++ t.leading))).tokens =
          { t with leading := pieces P ++ t.leading } :: ts := by
        rw [withAnn_tokens, lead_tokens _ _ h2]
      have hraw : raws ({ t with leading := pieces P ++ t.leading } :: ts) = (pieces P).map pieceEl ++ raws e'.tokens := by
        rw [h2, raws, List.flatMap_cons, pieces_raw, raws, List.flatMap_cons, List.append_assoc]
      have hown : ∀ u ∈ ts, Verif.Parser.CommentsOnOwnLine u.leading := fun u hu => h1.told.own u (by rw [h2]; simp [hu])
      refine ⟨.cons ((e'.lead (pieces P)).withAnn (led (pieces P ++ t.leading))) es', ?_, ⟨?_, h5.noted⟩, ?_, ?_, ?_, ?_, ?_, ?_⟩
      · rw [Exprs.voiced, h6, withAnn_ann, linesBefore, pieces_lines h4, led_pieces h4]
        simp only [withAnn_voiced, lead_voiced, h5.voiced]
        rw [notes_voices (k := fun n => .cons (e'.voiced N (fresh n)) (voices N [] es)) P false hg]
        have h7 : e'.voiced N (fresh (linesBeforeToken t)) = e := by
          have := voiced_lines (N := N) e'
          rw [h2, h1.voiced] at this
          exact this.symm
        simp only [h7]
        rfl
      · exact withAnn_noted (pieces_led h4 hi) (lead_noted _ _ h1.noted)
      · intro r hr
        refine ⟨withAnn_put (lead_put _ _ h1.put), ⟨rfl, ?_, { t with leading := pieces P ++ t.leading }, ?_, ?_, ?_⟩, h5.put r hr⟩
        · rw [erase_view]; exact view_not_hole _
        · rw [aview_first, h6]; rfl
        · rw [aview_ann, withAnn_ann]
        · intro hf c hc
          simp only [h4.leading] at hc
          rw [scan_pieces] at hc
          exact own_scans P false (.inr (hh hf)) c hc
      · intro u hu
        rw [Exprs.tokens, h6] at hu
        rcases List.mem_append.1 hu with hu | hu
        · rcases List.mem_cons.1 hu with rfl | hu
          · exact h4.trailing
          · exact h1.told.trail u (by rw [h2]; simp [hu])
        · exact h5.trail u hu
      · have h7 : raws es'.tokens = (raws es.tokens).map (El.tell N) := h5.text
        have h8 := h1.told.text
        rw [Exprs.tokens, h6, Exprs.tokens]
        unfold raws at *
        rw [List.flatMap_append, hraw, h7, h8, List.flatMap_append, List.map_append, List.append_assoc]
      · intro u hu
        rw [Exprs.tokens, h6, List.cons_append, List.tail_cons] at hu
        rcases List.mem_append.1 hu with hu | hu
        · exact hown u hu
        · exact h5.own0 rfl u hu
      · intro hf u hu
        rw [Exprs.tokens, h6] at hu
        rcases List.mem_append.1 hu with hu | hu
        · rcases List.mem_cons.1 hu with rfl | hu
          · show Verif.Parser.CommentsOnOwnLine (pieces P ++ t.leading)
            rw [h4.leading]
            exact own_lead (hh hf)
          · exact hown u hu
        · exact h5.own0 rfl u hu
      · intro hw
        have hP : P = [] := by
          apply Classical.byContradiction
          intro h
          have := (hp h).2
          rw [hw] at this
          cases this
        subst hP
        have h7 : led (pieces [] ++ t.leading) = {} := by rw [led_pieces h4]; rfl
        have h8 : e'.lead (pieces []) = e' := lead_nil e'
        rw [Exprs.comments, h7, h8, withAnn_same h1.ann, h1.mute hw, h5.mute hw]
        rfl
theorem said_items : (xs0 : Items) → ∀ {w f : Bool}, xs0.Simple o → xs0.bare.Aired o N w → Neatly N f xs0.tokens →
    ∃ xs, SaidI o N w xs0 xs
  | .nil, w, f, hs, ha, hn => ⟨.nil, rfl, trivial, fun _ r f b hr => put_one hr, told_nil, fun _ => rfl⟩
  | .last x, w, f, hs, ha, hn => by
    obtain ⟨x', h⟩ := said_arg x hs ha hn
    refine ⟨.last x', ?_, h.noted, ?_, h.told, h.mute⟩
    · rw [Items.voiced, h.voiced]
    · intro call r f b hr
      exact put_sub (h.put call) (h.ann call) (h.first call) (put_one hr)
  | .cons x s xs, w, f, hs, ha, hn => by
    have hts : Trim s := hn.trim s (by simp [Items.tokens])
    obtain ⟨x', h1⟩ := said_arg x hs.1 ha.1 hn.left
    obtain ⟨xs', h2⟩ := said_items xs hs.2.2 ha.2.2 (hn.right.tail (f' := false))
    refine ⟨.cons x' s xs', ?_, ⟨h1.noted, len_short ha.2.1, h2.noted⟩, ?_, h1.told.append (h2.told.cons hts (len_short ha.2.1)), ?_⟩
    · rw [Items.voiced, h1.voiced, h2.voiced, hts.fix]
    · intro call r f b hr
      exact put_sub (h1.put call) (h1.ann call) (h1.first call) (put_tok hts (h2.put _ _ _ _ hr))
    · intro hw; rw [Items.comments, h1.mute hw, h2.mute hw]; rfl
theorem said_arg : (x0 : Arg) → ∀ {w f : Bool}, x0.Simple o → x0.bare.Aired o N w → Neatly N f x0.tokens →
    ∃ x, SaidA o N w x0 x
  | .hole a, w, f, hs, ha, hn => by
    have hs : a = {} := hs
    subst hs
    refine ⟨.hole {}, fun _ => rfl, rfl, rfl, fun _ => trivial, ?_, told_nil, fun _ => rfl⟩
    intro call t ht
    cases ht
  | .val a e, w, f, hs, ha, hn => by
    obtain ⟨rfl, hs⟩ := hs
    obtain ⟨e', h⟩ := said_expr e hs ha hn
    refine ⟨.val {} e', fun _ => rfl, ?_, ⟨rfl, h.ann, h.direct, h.noted⟩, ?_, ?_, h.told, ?_⟩
    · rw [Arg.voiced, h.voiced]
    · intro call
      rw [Arg.aview, AView.Put, arg_stmts]
      exact h.last
    · intro call t ht
      rw [erase_viewArg, view_first, arg_tokens] at ht
      obtain ⟨u, us, us0, h1, -, h2⟩ := h.head
      rw [Arg.tokens, h1] at ht
      cases ht
      exact h2.quiet
    · intro hw; rw [Arg.comments, h.mute hw]; rfl
  | .name a na n p, w, f, hs, ha, hn => by
    obtain ⟨rfl, rfl, hs, -⟩ := hs
    have htp : Trim p := hn.trim p (by simp [Arg.tokens])
    obtain ⟨e', h⟩ := said_expr n hs ha.1 hn.left
    have hfirst : ∀ t, (AView.node {} .rArgumentNameClause (.sub e'.aview (.one p))).erase.first = some t →
        hasComment t.leading = false := by
      intro t ht
      obtain ⟨u, us, us0, h1, -, h2⟩ := h.head
      rw [AView.erase, AParts.erase, erase_view, view_first, View.tokens, Parts.tokens, view_tokens, h1] at ht
      cases ht
      exact h2.quiet
    refine ⟨.name {} {} e' p, fun _ => rfl, ?_, ⟨rfl, rfl, h.aside, h.noted, len_short ha.2⟩, ?_, ?_,
      h.told.append (told_one htp (len_short ha.2)), ?_⟩
    · rw [Arg.voiced, h.voiced, htp.fix]
    · intro call
      rw [Arg.aview, AView.Put, arg_stmts]
      refine put_sub ?_ rfl hfirst trivial
      exact h.sub (put_one htp)
    · intro call t ht
      rw [erase_viewArg, view_first, arg_tokens] at ht
      obtain ⟨u, us, us0, h1, -, h2⟩ := h.head
      rw [Arg.tokens, h1] at ht
      cases ht
      exact h2.quiet
    · intro hw; rw [Arg.comments, h.mute hw]; rfl
  | .named a na n p e, w, f, hs, ha, hn => by
    obtain ⟨rfl, rfl, hs, -, hs2⟩ := hs
    have htp : Trim p := hn.trim p (by simp [Arg.tokens])
    obtain ⟨n', h⟩ := said_expr n hs ha.1 hn.left
    obtain ⟨e', he⟩ := said_expr e hs2 ha.2.2 (hn.right.tail (f' := false))
    have hfirst : ∀ t, (AView.node {} .rArgumentNameClause (.sub n'.aview (.one p))).erase.first = some t →
        hasComment t.leading = false := by
      intro t ht
      obtain ⟨u, us, us0, h1, -, h2⟩ := h.head
      rw [AView.erase, AParts.erase, erase_view, view_first, View.tokens, Parts.tokens, view_tokens, h1] at ht
      cases ht
      exact h2.quiet
    refine ⟨.named {} {} n' p e', fun _ => rfl, ?_, ⟨rfl, rfl, h.aside, h.noted, len_short ha.2.1, he.ann, he.noted⟩, ?_, ?_,
      h.told.append (he.told.cons htp (len_short ha.2.1)), ?_⟩
    · rw [Arg.voiced, h.voiced, htp.fix, he.voiced]
    · intro call
      rw [Arg.aview, AView.Put, arg_stmts]
      refine put_sub ?_ rfl hfirst he.last
      exact h.sub (put_one htp)
    · intro call t ht
      rw [erase_viewArg, view_first, arg_tokens] at ht
      obtain ⟨u, us, us0, h1, -, h2⟩ := h.head
      rw [Arg.tokens, h1] at ht
      cases ht
      exact h2.quiet
    · intro hw; rw [Arg.comments, h.mute hw, he.mute hw]; rfl
  | .pdef a n da p e, w, f, hs, ha, hn => by
    obtain ⟨rfl, hs, rfl, -, hs2⟩ := hs
    have htp : Trim p := hn.trim p (by simp [Arg.tokens])
    obtain ⟨n', h⟩ := said_expr n hs ha.1 hn.left
    obtain ⟨e', he⟩ := said_expr e hs2 ha.2.2 (hn.right.tail (f' := false))
    refine ⟨.pdef {} n' {} p e', fun _ => rfl, ?_, ⟨rfl, h.aside, h.noted, rfl, len_short ha.2.1, he.ann, he.noted⟩, ?_, ?_,
      h.told.append (he.told.cons htp (len_short ha.2.1)), ?_⟩
    · rw [Arg.voiced, h.voiced, htp.fix, he.voiced]
    · intro call
      rw [Arg.aview, AView.Put, arg_stmts]
      refine h.sub (put_sub ?_ rfl ?_ trivial)
      · exact put_tok htp he.last
      · intro t ht
        cases ht
        exact htp.quiet
    · intro call t ht
      rw [erase_viewArg, view_first, arg_tokens] at ht
      obtain ⟨u, us, us0, h1, -, h2⟩ := h.head
      rw [Arg.tokens, h1] at ht
      cases ht
      exact h2.quiet
    · intro hw; rw [Arg.comments, h.mute hw, he.mute hw]; rfl
end

end Verif.Format
