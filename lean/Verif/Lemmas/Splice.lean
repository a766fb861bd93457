import Verif.Lemmas.ContextGram
import Verif.Lemmas.SplicePrint
import Verif.Lemmas.PlacementRoot
import Verif.Props.Lexer

/-!
# Formatted statements in the place of the statements of the source
-/

namespace Verif.Format
open Verif.Syntax

/-- The tokens of three parts. -/
theorem fits_parts {S1 S2 S3 : List (Pos × Tok)} {P M Q : List El} (h : Fits (S1 ++ S2 ++ S3) (seen .fresh (P ++ M ++ Q)))
    (h1 : S1.length = (printedToks P).length) (h2 : S2.length = (printedToks M).length)
    (h3 : S3.length = (printedToks Q).length) :
    Fits S1 (seen .fresh P) ∧ Fits S2 (seen (endState .fresh P) M) ∧
      Fits S3 (seen (endState (endState .fresh P) M) Q) := by
  have hl := fits_length h
  rw [seen_append, seen_append, endState_append] at h
  rw [seen_append, seen_append, endState_append] at hl
  simp only [List.length_append] at hl
  have a1 := seen_short .fresh P
  have a2 := seen_short (endState .fresh P) M
  have a3 := seen_short (endState (endState .fresh P) M) Q
  obtain ⟨h4, h5⟩ := Fits.split (a := S1 ++ S2) (by simp only [List.length_append]; omega) h
  obtain ⟨h6, h7⟩ := Fits.split (by omega) h4
  exact ⟨h6, h7, h5⟩

/-- The root for some statements. -/
def rootFor (mid : Exprs) : Root := ⟨{}, mid, ⟨.eof, [], [], []⟩⟩

theorem shapes_head (g : Region) (p : Pos) (es : Exprs) : shapes g p es = setHead p (shapes g .free es) := by
  cases es with
  | nil => rfl
  | cons e es =>
    simp only [shapes]
    cases h : shape g e with
    | nil =>
      have := shape_toks g e
      rw [h] at this
      simp only [List.map_nil] at this
      exact absurd (List.map_eq_nil_iff.1 this.symm) (tokens_ne_nil e)
    | cons q ps => rfl

theorem exprs_tokens_ne {es : Exprs} (h : es ≠ .nil) : es.tokens ≠ [] := by
  cases es with
  | nil => exact absurd rfl h
  | cons e es => simp [Exprs.tokens, tokens_ne_nil e]

theorem exprs_ends {es : Exprs} (h : es ≠ .nil) (hl : es.lexical) : ∃ r t, es.tokens = r ++ [t] ∧ TokEnds (outTok t) := by
  match es, h, hl with
  | .cons e .nil, _, hl =>
    obtain ⟨-, r, t, h1, h2⟩ := edges e hl.1
    exact ⟨r, t, by simp [Exprs.tokens, h1], h2⟩
  | .cons e (.cons e' es), _, hl =>
    obtain ⟨r, t, h1, h2⟩ := exprs_ends (es := .cons e' es) (by simp) hl.2
    exact ⟨e.tokens ++ r, t, by rw [Exprs.tokens, h1]; simp, h2⟩

theorem exprs_first {es : Exprs} (h : es ≠ .nil) (hl : es.lexical) : ∃ t r, es.tokens = t :: r ∧ FirstByte gap (outTok t) := by
  cases es with
  | nil => exact absurd rfl h
  | cons e es =>
    obtain ⟨⟨t, r, h1, h2⟩, -⟩ := edges e hl.1
    exact ⟨t, r ++ es.tokens, by rw [Exprs.tokens, h1]; rfl, h2⟩

theorem direct_first {els : List El} {u : Tok} (h : direct els = some u) : ∃ r, printedToks els = u :: r := by
  induction els with
  | nil => cases h
  | cons e els ih =>
    cases e with
    | tok v => cases h; exact ⟨_, rfl⟩
    | suffix l i t => exact ih h
    | blank bs =>
      by_cases hb : bs = []
      · exact ih (by simpa [direct, hb] using h)
      · simp [direct, hb] at h
    | space => cases h
    | nl => cases h
    | comment => cases h
    | rnl => cases h

theorem Lexed.word {ts : List Token} (h : Lexed ts) {t : Token} (ht : t ∈ ts) {k : Kind} (hk : t.kind = k)
    (h1 : k ≠ .stringContent) (h2 : k ≠ .stringClose) (h3 : k ≠ .rBrack2) : Word (outTok t) := by
  rcases h.1 t ht (hk ▸ h1) (hk ▸ h2) with h | ⟨h, -⟩
  · exact h
  · exact absurd (hk.symm.trans h) h3

theorem becomess_ne {o : Opts} {top : Bool} {es es' : Exprs} (h : Becomess o top es es') (hn : es ≠ .nil) : es' ≠ .nil := by
  cases es with
  | nil => exact absurd rfl hn
  | cons e es =>
    rw [Becomess] at h
    obtain ⟨x, xs, -, -, rfl⟩ := h
    simp

/-- The state before the statements. -/
theorem before_state {g : Region} {p : Pos} {mid : Exprs} {P M : List El} (hne : mid ≠ .nil)
    (tM : printedToks M = mid.tokens.map outTok) (f : Fits (shapes g p mid) (seen (endState .fresh P) M))
    (hP : (∃ t r, M = .tok t :: r) ∨ endState .fresh P = .fresh) :
    endState .fresh P ≠ .comment ∧ (p = .need → endState .fresh P = .fresh) := by
  rcases hP with ⟨t, r, rfl⟩ | h
  · generalize endState .fresh P = s at f
    have hl := fits_length f
    have hl' := congrArg List.length (shapes_toks g p mid)
    rw [← tM, List.length_map] at hl'
    rw [hl'] at hl
    have hs : s ≠ .comment := by
      rintro rfl
      have : seen .comment (.tok t :: r) = seen .comment r := by simp [seen, RState.after]
      rw [this] at hl
      have := seen_short .comment r
      simp [printedToks] at hl
      omega
    refine ⟨hs, ?_⟩
    rintro rfl
    have h1 : seen s (.tok t :: r) = (decide (s = .fresh), t) :: seen .inside r := by
      simp [seen, RState.after, hs]
    rw [h1, shapes_head] at f
    cases h2 : shapes g .free mid with
    | nil => rw [h2] at f; cases f
    | cons q ps =>
      rw [h2] at f
      obtain ⟨q1, q2⟩ := q
      have := f.2.1
      exact of_decide_eq_true this
  · rw [h]; simp

/-- Statements of a file are formatted by themselves and put in the place of the statements of the source:
R reads the result as the file with the formatted statements. `P`, `M` and `Q` are the text before, of and after the
statements. -/
theorem splice {o : Opts} {x : Root} {A B : List Token} {C : Exprs → Exprs} {mid : Exprs} {P M Q els out : List El}
    {m : Mode} {i : Nat}
    (hx : x.Spelled) (hg : x.es.gram = true)
    (hsrc : Fits (shapes .top .free x.es) (seen .fresh (rawFile x.es.tokens x.eof)))
    (hcs : ∀ c ∈ x.es.comments, CommentText c.text)
    (hC : InExprs A C B) (he : x.es = C mid) (hne : mid ≠ .nil)
    (hraw : rawFile x.es.tokens x.eof = P ++ M ++ Q)
    (tP : printedToks P = A.map outTok) (tM : printedToks M = mid.tokens.map outTok) (tQ : printedToks Q = B.map outTok)
    (hP : (∃ t r, M = .tok t :: r) ∨ endState .fresh P = .fresh)
    (hM : endState (endState .fresh P) M ≠ .fresh)
    (hc : ∀ d ∈ (rootFor mid).view.decos [] true, d.risky (rootFor mid).view = false)
    (hst : SteadyL o (rootFor mid).attach.es) (hcl : (rootFor mid).attach.es.clear o = true)
    (hs : rootSuppressed o (rootFor mid).attach.es = false)
    (hL : Lays false m i (fmtRoot o (rootFor mid).attach) els) (hr : Respelled (emit els) out)
    (hland : printedComments out = [] ∨ (seen .comment Q).length = (printedToks Q).length) :
    ∃ out' mid', out = out' ++ [.rnl] ∧ Becomess o true (rootFor mid).attach.es mid' ∧
      readText (render (P ++ out' ++ Q)) = some (C mid').bare := by
  -- what is known of the file
  have htoks : x.es.tokens = A ++ mid.tokens ++ B := by rw [he, hC.tokens]
  have hseen : (seen .fresh (rawFile x.es.tokens x.eof)).map Prod.snd = x.es.tokens.map outTok :=
    (fits_toks hsrc).trans (shapes_toks _ _ _)
  obtain ⟨hlx, hlk⟩ := spelled_tokens hx hseen
  have hcom := spelled_comments hx
  have hxlex : (C mid).lexical := he ▸ gram_lexicals _ hg hlx hcs
  have hmg : mid.gram = true := (hC.gram (m := mid) (he ▸ hg)).1
  -- the statements by themselves
  have mtoks : (rootFor mid).attach.es.tokens = mid.tokens := annotates_tokens _ _ _ _
  have mg : (rootFor mid).attach.es.gram = true := (grams_annotate _ _ _ _).trans hmg
  have mlx : Lexed mid.tokens := by rw [htoks] at hlx; exact hlx.left.right
  have mlk : Linked mid.tokens := by rw [htoks] at hlk; exact hlk.left.right
  have msub : ∀ t ∈ (rootFor mid).sourceComments, t ∈ x.sourceComments := by
    intro t ht
    obtain ⟨p, hp, rfl⟩ := List.mem_map.1 ht
    obtain ⟨hp, hk⟩ := List.mem_filter.1 hp
    refine List.mem_map.2 ⟨p, List.mem_filter.2 ⟨?_, hk⟩, rfl⟩
    rcases List.mem_append.1 hp with hp | hp
    · refine List.mem_append_left _ ?_
      rw [htoks]
      obtain ⟨t, ht, hp⟩ := List.mem_flatMap.1 hp
      exact List.mem_flatMap.2 ⟨t, by simp [show t ∈ mid.tokens from ht], hp⟩
    · cases hp
  have mcom := C37_attached_once (rootFor mid)
  have mann : ∀ c ∈ (rootFor mid).attach.ann.all, CommentText c.text := annOk_comments fun t ht =>
    hcom t (msub t (mcom.mem_iff.1 (List.mem_append_left _ ht)))
  have mes : ∀ c ∈ (rootFor mid).attach.es.comments, CommentText c.text := fun c hc =>
    hcom _ (msub _ (mcom.mem_iff.1 (List.mem_append_right _ (List.mem_map.2 ⟨c, hc, rfl⟩))))
  have mlex : (rootFor mid).attach.es.lexical := gram_lexicals _ mg (by rw [mtoks]; exact mlx) mes
  -- the place
  obtain ⟨g, p, S1, S3, hgp, hA, hS1, hS3, hpp⟩ := hC.file
  have hsrc' := hsrc
  rw [he, show shapes .top .free (C mid) = S1 ++ shapes g p mid ++ S3 from hA mid hne] at hsrc'
  have hS3t : S3.map Prod.snd = B.map outTok := by
    have h1 := shapes_toks .top .free (C mid)
    rw [show shapes .top .free (C mid) = S1 ++ shapes g p mid ++ S3 from hA mid hne, hC.tokens] at h1
    simp only [List.map_append, hS1, shapes_toks] at h1
    exact List.append_cancel_left h1
  have hsrcL : SrcL (shapes g p mid) mid.tokens := by
    have h1 := srcL_file (shapes_toks _ _ _) hsrc
    rw [he, show shapes .top .free (C mid) = S1 ++ shapes g p mid ++ S3 from hA mid hne, hC.tokens] at h1
    have h2 := (SrcL.split (by simp [hS1, shapes_toks]) h1).1
    exact (SrcL.split hS1 h2).2
  rw [← he, hraw] at hsrc'
  obtain ⟨f1, f2, f3⟩ := fits_parts hsrc' (by have := congrArg List.length hS1; simpa [tP] using this)
    (by have := congrArg List.length (shapes_toks g p mid); simpa [tM] using this)
    (by have := congrArg List.length hS3t; simpa [tQ] using this)
  have hT : Tames true o g {} true (rootFor mid).attach.es := by
    refine tames_steady g {} (by simpa using hgp) true p _ (calm_attach (rootFor mid) hmg hc) hst ?_
    have h2 : shapes g p (rootFor mid).attach.es = shapes g p mid := shapes_annotate _ _ _ _ _ _
    rw [mtoks, h2]
    exact hsrcL
  obtain ⟨mid', hR, hrd⟩ := reads_sub hs hT hL
  have hB : Becomess o true (rootFor mid).attach.es mid' := rews_becomes o _ _ _ _ hR
  have hmne : (rootFor mid).attach.es ≠ .nil := by
    intro h
    rw [h] at mtoks
    exact exprs_tokens_ne hne mtoks.symm
  have hne' : mid' ≠ .nil := becomess_ne hB hmne
  have fo : Fits (shapes g .free mid') (seen .fresh out) := by
    rw [← respelled_seen hr, seen_emit]
    exact (hrd.1 rfl .fresh (Fr.nc rfl)).1
  -- the line feed at the end
  obtain ⟨b, rfl⟩ := root_last hs (attach_ann _ hne) hL
  have ho1 : printedToks (emit (b ++ [.nl false i])) = printedToks b := by
    rw [printedToks_emit, printedToks_append]; simp [printedToks]
  have toM : (seen .fresh out).map Prod.snd = mid'.tokens.map outTok := (fits_toks fo).trans (shapes_toks _ _ _)
  have hbne : printedToks b ≠ [] := by
    intro hb
    have := seen_short .fresh out
    rw [← respelled_toks hr, ho1, hb] at this
    have h0 : seen .fresh out = [] := List.eq_nil_of_length_eq_zero (by simpa using this)
    rw [h0] at toM
    exact exprs_tokens_ne hne' (List.map_eq_nil_iff.1 toM.symm)
  obtain ⟨w, hw⟩ := emit_last (e := false) (i := i) hbne
  have hr' := hr
  rw [hw] at hr'
  obtain ⟨out', rfl, hro⟩ := respelled_last hr'
  refine ⟨out', mid', rfl, hB, ?_⟩
  have tO : printedToks out' = mid'.tokens.map outTok := by
    have h1 := respelled_toks hr
    rw [printedToks_emit, hrd.2, shapes_toks, printedToks_append] at h1
    simpa [printedToks] using h1.symm
  have fo : Fits (shapes g .free mid') (seen .fresh out') := by
    rw [seen_append] at fo
    simpa [seen] using fo
  obtain ⟨sP1, sP2⟩ := before_state hne tM f2 hP
  -- the tokens of the statements
  have fo' : Fits (shapes g p mid') (seen (endState .fresh P) out') := by
    rcases hpp with rfl | ⟨rfl, -⟩
    · rw [sP2 rfl, shapes_head]
      rw [shapes_head] at fo
      exact fits_need fo (by simp)
    · refine fits_refree (by simp) sP1 ?_ fo
      intro y hy
      rw [shapes_head] at hy
      cases h : shapes g .free mid' with
      | nil => rw [h] at hy; cases hy
      | cons q ps => rw [h] at hy; cases hy; rfl
  -- the tokens after the statements
  have hlQ : (seen (endState (endState .fresh P) M) Q).length = (printedToks Q).length := by
    rw [fits_length f3, tQ, List.length_map, ← List.length_map (as := S3) (f := Prod.snd), hS3t, List.length_map]
  have fq : Fits S3 (seen (endState (endState .fresh P) out') Q) ∧
      (endState (endState .fresh P) out' = .comment → (seen .comment Q).length = (printedToks Q).length) := by
    by_cases hm : endState (endState .fresh P) M = .comment
    · rw [hm] at f3 hlQ
      rw [seen_landed hlQ]
      exact ⟨f3, fun _ => hlQ⟩
    · have hin : endState (endState .fresh P) M = .inside := by
        revert hm hM
        cases endState (endState .fresh P) M <;> simp
      rw [hin] at f3
      cases hO : endState (endState .fresh P) out' with
      | inside => exact ⟨f3, nofun⟩
      | fresh =>
        refine ⟨fits_fresh (by simp) ?_ f3, nofun⟩
        intro y hy
        rcases hS3 y hy with h | ⟨h, -⟩ <;> rw [h] <;> simp
      | comment =>
        have hl : (seen .comment Q).length = (printedToks Q).length := by
          rcases hland with hland | hland
          · refine absurd hO (endState_comment ?_ sP1)
            rw [printedComments_append] at hland
            exact (List.append_eq_nil_iff.1 hland).1
          · exact hland
        refine ⟨?_, fun _ => hl⟩
        rw [← seen_landed hl .inside]
        exact f3
  have hfit : Fits (shapes .top .free (C mid')) (seen .fresh (P ++ out' ++ Q)) := by
    rw [show shapes .top .free (C mid') = S1 ++ shapes g p mid' ++ S3 from hA mid' hne', seen_append, seen_append,
      endState_append]
    exact (f1.append fo').append fq.1
  -- tokens stay apart
  have hgl : Glued none (P ++ M ++ Q) ∧ NoStr (glueEnd none (P ++ M ++ Q)) := by
    obtain ⟨hpa, hu⟩ := spelled_parted hx hseen
    rw [hraw] at hpa hu
    exact glued_parted _ [] none (hraw ▸ rawFile_isPlain x.es.tokens x.eof) hpa (fun t ht => by cases ht) hu
  have hmgl : (Glued none (out' ++ [.rnl]) ∧ NoStr (glueEnd none (out' ++ [.rnl]))) ∧
      ∀ e ∈ out' ++ [.rnl], Trivial e := by
    have := flow_root (o := o) (x := (rootFor mid).attach) mann mlex (by rw [mtoks]; exact mlk) hs _ _ _ _ hL none
      Before.none
    have h1 := glued_emit this.1 this.2.1.noStr
    refine ⟨⟨(respelled_glued hr _).1 h1.1, ?_⟩, respelled_trivial hr (trivial_emit this.2.2)⟩
    rw [← (respelled_glued hr _).2]; exact h1.2
  have mlex' : mid'.lexical := becomess_lexical o _ _ _ hB mlex
  -- before the statements
  have gP : NoStr (glueEnd none P) ∧ ∀ u, direct out' = some u → Follows (glueEnd none P) u := by
    cases hgP : glueEnd none P with
    | none => exact ⟨trivial, fun u _ => trivial⟩
    | some t =>
      have hs1 := glueEnd_state (s := .fresh) (fun h => absurd rfl h) hgP
      rcases hpp with hp | ⟨-, hA' | ⟨A', l, hA', hlk'⟩⟩
      · exact absurd (sP2 hp) hs1
      · rw [hA'] at tP
        rcases glueEnd_some hgP with ⟨r, h⟩ | ⟨-, h⟩
        · rw [h] at tP; simp at tP
        · cases h
      · have ht : t = outTok l := by
          rcases glueEnd_some hgP with ⟨r, h⟩ | ⟨-, h⟩
          · rw [h, hA', List.map_append] at tP
            exact (List.append_inj_right' tP rfl |> List.cons.inj).1
          · cases h
        subst ht
        have hw : Word (outTok l) := hlx.word (by rw [htoks, hA']; simp) hlk' (by simp) (by simp) (by simp)
        have hk : (outTok l).kind = .lCurly := hlk'
        refine ⟨by show holds (outTok l) = false; unfold holds; rw [hk]; rfl, fun u hu => .inr fun b r hb => ?_⟩
        refine hw.opens (by rw [hk]; decide) ?_
        obtain ⟨r', hr'⟩ := direct_first hu
        obtain ⟨t1, r1, h1, h2⟩ := exprs_first hne' mlex'
        rw [tO, h1] at hr'
        simp only [List.map_cons, List.cons.injEq] at hr'
        rw [← hr'.1] at hb
        exact h2 b r hb
  have gO : Glued (glueEnd none P) out' := glued_switch ((glued_append _ _ _).1 hmgl.1.1).1 gP.1 gP.2
  have nO : NoStr (glueEnd (glueEnd none P) out') := by
    have h1 := ((glued_append _ _ _).1 hmgl.1.1).2
    exact noStr_switch gP.1 h1.1
  -- after the statements
  have gQ : ∀ u, direct Q = some u → Follows (glueEnd (glueEnd none P) out') u := by
    intro u hu
    cases hgO : glueEnd (glueEnd none P) out' with
    | none => trivial
    | some t =>
      have hsO : endState (endState .fresh P) out' ≠ .fresh := by
        refine glueEnd_state (fun h => ?_) hgO
        cases hgP : glueEnd none P with
        | none => exact absurd hgP h
        | some t' => exact glueEnd_state (fun h => absurd rfl h) hgP
      have hin : endState (endState .fresh P) out' = .inside := by
        cases hO : endState (endState .fresh P) out' with
        | inside => rfl
        | fresh => exact absurd hO hsO
        | comment =>
          have h1 := (direct_seen (s := .comment) hu).1 rfl
          have h2 := fq.2 hO
          omega
      have f4 := fq.1
      rw [hin] at f4
      obtain ⟨r, h1⟩ := (direct_seen (s := .inside) hu).2 rfl
      rw [h1] at f4
      obtain ⟨⟨q, u'⟩, S4, hS4⟩ : ∃ a b, S3 = a :: b := by
        cases hS : S3 with
        | nil => rw [hS] at f4; cases f4
        | cons a b => exact ⟨a, b, rfl⟩
      rw [hS4] at f4
      rcases hS3 (q, u') (by rw [hS4]; rfl) with h2 | ⟨-, c, hc1, hc2⟩
      · have h2 : q = .need := h2
        have h3 : q.Ok false := f4.2.1
        rw [h2] at h3
        cases h3
      · have hc2 : u' = outTok c := hc2
        have hu' : u = outTok c := by rw [← hc2]; exact f4.1.symm
        obtain ⟨r2, h3⟩ := direct_first hu
        rw [tQ] at h3
        obtain ⟨c', hc', hcu⟩ := List.mem_map.1 (show u ∈ B.map outTok by rw [h3]; simp)
        have hk : c'.kind = .rCurly := by
          have : (outTok c').kind = (outTok c).kind := by rw [hcu, hu']
          exact this.trans hc1
        have hw : Word u := hcu ▸ hlx.word (by rw [htoks]; simp [hc']) hk (by simp) (by simp) (by simp)
        have hcont : FirstByte cont u := by
          refine hw.cont ?_
          rw [← hcu, show (outTok c').kind = .rCurly from hk]; decide
        obtain ⟨r4, t4, h4, h5⟩ := exprs_ends hne' mlex'
        have ht4 : t = outTok t4 := by
          rcases glueEnd_some hgO with ⟨r, h⟩ | ⟨h, -⟩
          · rw [tO, h4, List.map_append] at h
            exact (List.append_inj_right' h rfl |> List.cons.inj).1.symm
          · rw [tO, h4] at h; simp at h
        exact .inr fun b r hb => ht4 ▸ h5.2 b (hcont b r hb)
  have hnew : Glued none (P ++ out' ++ Q) ∧ NoStr (glueEnd none (P ++ out' ++ Q)) := by
    have h1 := (glued_append _ _ _).1 hgl.1
    have h2 := (glued_append _ _ _).1 h1.1
    refine ⟨(glued_append _ _ _).2 ⟨(glued_append _ _ _).2 ⟨h2.1, gO⟩, ?_⟩, ?_⟩
    · rw [glueEnd_append]
      exact glued_switch h1.2 nO gQ
    · rw [glueEnd_append, glueEnd_append]
      have h3 := hgl.2
      rw [glueEnd_append, glueEnd_append] at h3
      exact noStr_switch nO h3
  have htriv : ∀ e ∈ P ++ out' ++ Q, Trivial e := by
    have h1 := rawFile_trivial _ _ hx.trivia
    rw [hraw] at h1
    intro e he'
    rcases List.mem_append.1 he' with he' | he'
    · rcases List.mem_append.1 he' with he' | he'
      · exact h1 e (by simp [he'])
      · exact hmgl.2 e (List.mem_append_left _ he')
    · exact h1 e (by simp [he'])
  have hlex' : (C mid').lexical := (hC.lexical hxlex).2 mid' mlex'
  have hprinted : printedToks (P ++ out' ++ Q) = (C mid').tokens.map outTok := by
    rw [printedToks_append, printedToks_append, tP, tO, tQ, hC.tokens]; simp
  have htr : Tracks [] (printedToks (P ++ out' ++ Q)) := by
    rw [hprinted]
    exact (sounds (C mid') hlex' [] rfl).1
  have hno : (seen .fresh (P ++ out' ++ Q)).map Prod.snd = printedToks (P ++ out' ++ Q) := by
    rw [fits_toks hfit, shapes_toks, hprinted]
  have hg' : (C mid').gram = true := (hC.gram (m := mid) (he ▸ hg)).2 mid' (C39_grammar o _ _ mg hcl hB)
  unfold readText
  rw [lexText_glued hnew.1 hnew.2 htriv htr hno]
  exact readFile_gram hg' hfit

end Verif.Format
