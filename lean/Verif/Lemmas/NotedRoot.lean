import Verif.Lemmas.NotedOf
import Verif.Props.Respaced

/-!
# Formatting formatted files whose comments lead statements
-/

namespace Verif.Format
open Verif.Syntax Verif.Whole

variable {o : Opts} {N : Nat}

theorem noted_root {es : Exprs} (h : es.Noted o N) : rootSuppressed o es = false := by
  cases es with
  | nil => rfl
  | cons e es =>
    have h1 := h.1.led.2.2
    simp only [rootSuppressed]
    split
    · rfl
    · rename_i c cs heq
      rw [heq] at h1
      rw [(h1 c (by simp)).2, Bool.false_or, List.any_eq_false]
      intro c hc
      simp [(h1 c hc).1]

theorem same_noted {x : Root} (ha : x.ann = {}) (hn : x.es.Noted o N) :
    Same (fmtRoot o x) (fmtExprs o {} true true x.es ⊹ .line .hard) := by
  unfold fmtRoot
  rw [noted_root hn, ha, if_neg (by decide)]
  exact same_node

theorem ruled_snoc {k : Bool} {j : Nat} : ∀ {x : List El} {b : Bool}, Ruled N b x → Ruled N b (x ++ [.nl k j])
  | [], b, _ => ⟨nofun, trivial⟩
  | e :: x, b, h => by
    refine ⟨fun he => ?_, ruled_snoc h.2⟩
    obtain ⟨h1, k, j, u, y, rfl⟩ := h.1 he
    exact ⟨h1, k, j, u, _, rfl⟩

theorem toks_solid (z : List El) : printedToks (z.filter El.solid) = printedToks z := by
  induction z with
  | nil => rfl
  | cons e z ih =>
    cases e
    case blank => exact ih
    all_goals
      rw [List.filter_cons, if_pos (by rfl)]
      simp only [printedToks, ih]

theorem toks_tell {z : List El} {t : Tok} (h : t ∈ printedToks z) (ht : t.isNote N = false) :
    t ∈ printedToks (z.map (El.tell N)) := by
  induction z with
  | nil => cases h
  | cons e z ih =>
    cases e
    case tok u =>
      rcases List.mem_cons.1 h with rfl | h
      · rw [List.map_cons, tell_short ht]
        exact List.mem_cons_self
      · have := ih h
        rw [List.map_cons]
        simp only [El.tell]
        split
        · exact this
        · exact List.mem_cons_of_mem _ this
    all_goals exact ih h

theorem raws_file (ts : List Token) (eof : Token) : rawFile ts eof = raws ts ++ eof.leading.map pieceEl := by
  unfold rawFile raws
  congr 1

/-- What is read in a formatted file is formatted in the same way. -/
theorem again_noted {x y : Root} {els : List El} (hper : o.persistent = true) (ha : x.ann = {}) (hN : 2 ≤ N)
    (hn : x.es.Noted o N) (hg : x.es.gram = true) (hcl : x.es.clear o = true)
    (h : Prints .expanded 0 (fmtRoot o x) els) (hy : RereadsNoted (emit els) y) :
    Prints .expanded 0 (fmtRoot o y.attach) els ∧
    ∀ els', Prints .expanded 0 (fmtRoot o y.attach) els' → Prints .expanded 0 (fmtRoot o x) els' := by
  -- the layout, with statements for comments
  obtain ⟨x1, x2, rfl, h1, h2⟩ := ((same_noted ha hn).prints _ _ _).1 h
  have hx2 : x2 = [.nl false 0] := h2
  subst hx2
  have hS := sim_exprs (q := False) hN x.es hn nofun {} true true
  obtain ⟨x10, p10, rfl⟩ := hS.fwd _ _ _ h1
  have hSimp := simples_voiced x.es hn
  obtain ⟨-, -, -, hc0⟩ := Exprs.Simple.ok _ hSimp
  have hcl1 := clean_fmtExprs _ {} true true hSimp ((prints_lays _ _ _ _ p10).2.1 rfl)
  have hclean : ∀ e ∈ x10 ++ [El.nl false 0], e.clean = true := by
    intro e he
    rcases List.mem_append.1 he with he | he
    · exact hcl1 e he
    · cases List.mem_singleton.1 he; rfl
  have hemit : emit (x10.map (El.tell N) ++ [.nl false 0]) = (emit (x10 ++ [.nl false 0])).map (El.tell N) := by
    have := emit_tell (N := N) (x10 ++ [.nl false 0]) {} rfl hclean
    rw [List.map_append] at this
    exact this
  have hpr : ∀ e ∈ emit (x10 ++ [.nl false 0]), Printed e := printed_els _ _ rfl hclean
  -- its tokens
  have hair := voiced_aireds x.es hn (w := true) nofun
  have hed : Edits o.style ((x.es.voiced N).tokens.map outTok) (printedToks (emit (x10 ++ [.nl false 0]))) := by
    have hp : Prints .expanded 0 (fmtRoot o ⟨{}, x.es.voiced N, x.eof⟩) (x10 ++ [.nl false 0]) :=
      ((same_root (x := ⟨{}, x.es.voiced N, x.eof⟩) rfl hc0).prints _ _ _).2 ⟨_, _, rfl, p10, h2⟩
    exact C36_tokens o ⟨{}, x.es.voiced N, x.eof⟩ .expanded _ ((prints_lays _ _ _ _ hp).2.1 rfl)
  have hty : printedToks (emit (x10.map (El.tell N) ++ [.nl false 0])) = y.es.tokens.map outTok := by
    rw [← toks_solid, ← hy.text, toks_solid, printedToks_rawFile]
  have hst : ∀ t ∈ printedToks (emit (x10 ++ [.nl false 0])), t.stays := by
    intro t ht
    rcases edits_plainly hN hed (aired_out hair) t ht with h3 | h3
    · have h4 := toks_tell (N := N) ht (by simp [Tok.isNote]; exact h3)
      rw [← hemit, hty] at h4
      obtain ⟨u, hu, rfl⟩ := List.mem_map.1 h4
      exact fixed_stays (hy.strings u hu)
    · exact ident_stays h3
  generalize hL : lineFeeds 0 (emit (x10 ++ [.nl false 0])) = L at *
  have hstL : ∀ p ∈ L, p.2.stays := by
    intro p hp
    refine hst p.2 ?_
    rw [← lineFeeds_toks 0, hL]
    exact List.mem_map_of_mem hp
  have hneat : Neatly N true (L.map lined) := by
    refine neatly_spaced L ?_ hstL
    rw [← hL]
    exact spaced_emit _ {} 0 true true rfl hclean (ruled_snoc (hS.tame _ _ _ p10)) (fun _ => rfl) (fun _ => .inl rfl)
  have htoks : (L.map lined).map (fun t => (linesBeforeToken t, outTok t)) = L := by
    rw [List.map_map]
    refine (List.map_congr_left (g := id) fun p hp => ?_).trans (List.map_id _)
    simp only [Function.comp, lined_lines, lined_out (hstL p hp), id]
  -- the program that is followed
  obtain ⟨s', hw⟩ := walk_emit (x10 ++ [El.nl false 0]) {} 0 (L.map lined) hclean rfl (htoks.trans hL.symm)
  obtain ⟨s1, ts1, hw1, hw2⟩ := walk_append hw
  have : ts1 = [] := by cases hw2; rfl
  subst this
  obtain ⟨-, es', hE⟩ := core_exprs hper (x.es.voiced N) {} true true .expanded 0 x10 _ _ s1 [] hSimp
    (fun t ht => by
      obtain ⟨p, -, rfl⟩ := List.mem_map.1 ht
      exact lined_bland p) nofun ⟨p10, nofun, nofun, hw1⟩
  have hts : L.map lined = es'.tokens := by rw [hE.toks, List.append_nil]
  obtain ⟨es2, hR, hb2⟩ := hE.rew
  have hB2 := rews_becomes o _ _ _ _ hR
  have hair' : es'.bare.Aired o N true := by rw [← hb2]; exact becomess_aired hN _ _ hB2 hair
  -- the same with comments
  obtain ⟨A, hA⟩ := said_exprs es' (w := true) (f := true) (P := []) hE.simple hair' (by rw [← hts]; exact hneat)
    trivial (by simp) nofun nofun
  have hv : A.voiced N = es' := hA.voiced
  obtain ⟨k, hk⟩ := solid_text (emit (x10 ++ [.nl false 0])) 0 hpr (by rw [hL]; exact hstL)
  rw [hL, hts] at hk
  have hk : (emit (x10 ++ [.nl false 0])).filter El.solid = raws es'.tokens ++ List.replicate k .rnl := hk
  let eof' : Token := { y.eof with leading := List.replicate k nlPiece, trailing := [] }
  have htrim : Trim eof' := by
    refine ⟨?_, ?_⟩
    · have h3 : linesBeforeToken eof' = k := fresh_lines k y.eof
      rw [hush, h3]
      rfl
    · have h3 : eof'.text = [] := hy.last.1
      unfold outTok
      rw [h3]
      simp only
      split <;> rfl
  have hatt : (⟨{}, A, eof'⟩ : Root).attach = ⟨{}, A, eof'⟩ := put_root (hA.put eof' htrim)
  have hraw : rawFile A.tokens eof' = (emit (x10.map (El.tell N) ++ [.nl false 0])).filter El.solid := by
    rw [hemit, tell_solid, hk, raws_file, hA.text, List.map_append]
    have h3 : eof'.leading.map pieceEl = List.replicate k El.rnl := nls_els k
    rw [h3, List.map_replicate]
    rfl
  have hexact : ∀ t ∈ A.tokens, Exact t := exact_voiceds A (by
    rw [hv, ← hts]
    intro u hu
    exact (hneat.trim u hu).2)
  obtain ⟨e1, e2⟩ := same_file (eof := eof') (eof' := y.eof) hy.last.2.symm rfl rfl A.tokens y.es.tokens
    (by
      intro t ht q hq
      rcases List.mem_append.1 ht with ht | ht
      · rw [hA.trail t ht] at hq; cases hq
      · cases List.mem_singleton.1 ht; cases hq)
    (by
      intro t ht q hq
      rcases List.mem_append.1 ht with ht | ht
      · exact hy.lines t ht q hq
      · cases List.mem_singleton.1 ht; rw [hy.last.2] at hq; cases hq)
    (by
      intro t ht
      have h4 : t ∈ A.tokens.tail ∨ t = eof' := by
        cases h5 : A.tokens with
        | nil => rw [h5] at ht; cases ht
        | cons u us =>
          rw [h5] at ht
          simpa using ht
      rcases h4 with h4 | rfl
      · exact hA.own t h4
      · exact own_free (nls_comment k))
    hy.own hexact hy.strings
    (by rw [marks_solid, marks_solid, hraw, hy.text, List.filter_filter]; simp)
  -- both are read as the same program
  have hSa := sim_exprs (q := False) hN A hA.noted nofun {} true true
  rw [hv] at hSa
  have hsame := same_noted (x := ⟨{}, A, eof'⟩) rfl hA.noted
  have hPa : Prints .expanded 0 (fmtRoot o ⟨{}, A, eof'⟩) (x10.map (El.tell N) ++ [.nl false 0]) :=
    (hsame.prints _ _ _).2 ⟨_, _, rfl, hSa.bwd _ _ _ hE.again.prints, h2⟩
  obtain ⟨hcalm, hord⟩ := noted_fines A hA.noted
  obtain ⟨es1, hB, hf⟩ := C38_reads_calm_partial o ⟨{}, A, eof'⟩ .expanded _ (noted_root hA.noted) hcalm hord
    ((prints_lays _ _ _ _ hPa).2.1 rfl)
  have hout : A.tokens.map outTok = y.es.tokens.map outTok := by
    have := congrArg (List.map outTok) e1
    rw [List.map_map, List.map_map] at this
    exact this
  have ht1 : es1.tokens.map outTok = A.tokens.map outTok := by
    rw [hout, ← shapes_toks .top .free, ← fits_toks hf, ← shapes_toks .top .free y.es, ← fits_toks hy.fits]
  have hb1 : es1.bare = A.bare := (keeps_exprs o A es1 true hB).2 ht1
  have hg2 := C39_grammar o _ es2 ((grams_voiced x.es).trans hg) (clears_voiced x.es hcl) hB2
  have hgA : A.gram = true := by rw [← grams_voiced (N := N), hv, ← bares_gram, ← hb2, bares_gram, hg2]
  have hg1 : es1.gram = true := by rw [← bares_gram, hb1, bares_gram, hgA]
  have hbare : A.bare = y.es.bare := by
    have h3 := readFile_gram hy.gram hy.fits
    rw [readFile_gram hg1 hf] at h3
    rw [← hb1]
    exact Option.some.inj h3
  have key := (C63_blanks o (x := ⟨{}, A, eof'⟩) (y := y) ⟨hbare, e1, e2⟩ (by rw [hatt]; exact noted_root hA.noted)
    (by rw [hatt]; exact hord)).1
  rw [hatt] at key
  rw [← key]
  refine ⟨hPa, fun els' h' => ?_⟩
  obtain ⟨z1, z2, rfl, hz1, hz2⟩ := (hsame.prints _ _ _).1 h'
  obtain ⟨z0, hz0, rfl⟩ := hSa.fwd _ _ _ hz1
  exact ((same_noted ha hn).prints _ _ _).2 ⟨_, _, rfl, hS.bwd _ _ _ (hE.again.refines .expanded 0 _ nofun hz0), hz2⟩

end Verif.Format
