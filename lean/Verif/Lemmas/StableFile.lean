import Verif.Lemmas.StableRoot
import Verif.Props.Assignment
import Verif.Props.Source

/-!
# Formatting formatted files: the file
-/

namespace Verif.Format
open Verif.Syntax

variable {o : Opts}

/-! ## What is printed without comments -/

/-- Tokens, spaces and line breaks. -/
def El.clean : El → Bool
  | .tok _ | .space | .nl .. | .rnl => true
  | _ => false

theorem clean_of {e : El} (h1 : e.free = true) (h2 : e.isComment = false) : e.clean = true := by
  cases e <;> simp_all [El.free, El.isComment, El.clean]

theorem bland_inner : (ts : List Token) → (∀ t ∈ ts, Bland t) → hasComment (innerTrivia ts) = false
  | [], _ => rfl
  | [_], _ => rfl
  | t :: u :: ts, h => by
    have h1 := bland_inner (u :: ts) (fun t ht => h t (by simp [ht]))
    rw [innerTrivia, hasComment_append, hasComment_append, h1, (h t (by simp)).2, (h u (by simp)).1]
    rfl

theorem clean_fmt {e : Expr} {cx : Cx} (hs : e.Simple o) (hv : cx.table ≠ some true) {ns : Bool} {m : Mode}
    {i : Nat} {x : List El} (h : Lays ns m i (fmt o cx e) x) : ∀ a ∈ x, a.clean = true := by
  obtain ⟨h1, -, h3, h4⟩ := Expr.Simple.ok e hs
  intro a ha
  exact clean_of (Doc.free.lays (free_fmt e cx h1 hv) ns m i x h a ha)
    (Doc.plain.silent (fmt_plain o e cx h4 (bland_inner _ h3)) ns m i x h a ha)

theorem clean_sep {top ns : Bool} {n : Nat} {m : Mode} {i : Nat} {x : List El}
    (h : Lays ns m i (stmtSep top n) x) : ∀ a ∈ x, a.clean = true := by
  unfold stmtSep at h
  split at h
  · split at h
    · obtain ⟨y, z, rfl, hy, hz⟩ := h
      have hy : y = layLine ns m i .empty := hy
      have hz : z = [.rnl] := hz
      subst hy; subst hz
      intro a ha
      simp [layLine] at ha
      rcases ha with rfl | rfl <;> rfl
    · split at h
      · have h : x = layLine ns m i .empty := h
        subst h
        intro a ha
        simp [layLine] at ha
        subst ha; rfl
      · have h : x = layLine ns m i .hard := h
        subst h
        intro a ha
        simp [layLine] at ha
        subst ha; rfl
  · split at h
    · have h : x = layLine ns m i .empty := h
      subst h
      intro a ha
      simp [layLine] at ha
      subst ha; rfl
    · have h : x = layLine ns m i .hard := h
      subst h
      intro a ha
      simp [layLine] at ha
      subst ha; rfl

theorem clean_fmtExprs : (es : Exprs) → (cx : Cx) → (top first : Bool) → es.Simple o → ∀ {ns : Bool} {m : Mode}
    {i : Nat} {x : List El}, Lays ns m i (fmtExprs o cx top first es) x → ∀ a ∈ x, a.clean = true
  | .nil, _, _, _, _, _, _, _, _, h => by
    cases h
    intro a ha
    cases ha
  | .cons e es, cx, top, first, hs, ns, m, i, x, h => by
    rw [fmtExprs] at h
    obtain ⟨x1, x2, rfl, h1, x3, x4, rfl, h3, h4⟩ := h
    have k1 : ∀ a ∈ x1, a.clean = true := by
      split at h1
      · cases h1
        intro a ha
        cases ha
      · exact clean_sep h1
    have k2 := clean_fmt hs.1 (by simp) h3
    have k3 := clean_fmtExprs es cx top false hs.2 h4
    intro a ha
    simp only [List.mem_append] at ha
    grind

/-! ## The printed text and the layout -/

theorem lineFeeds_ind (n i : Nat) (z : List El) :
    lineFeeds n ((if i = 0 then [] else [.blank (List.replicate i 9)]) ++ z) = lineFeeds n z := by
  split <;> rfl

theorem lineFeeds_gap (n : Nat) (b : Bool) (z : List El) :
    lineFeeds n ((if b then [.blank [32]] else []) ++ z) = lineFeeds n z := by
  cases b <;> rfl

theorem lineFeeds_rnl (n : Nat) (b : Bool) (z : List El) :
    lineFeeds n ((if b then [.rnl] else []) ++ z) = lineFeeds (n + (if b then 1 else 0)) z := by
  cases b <;> rfl

/-- What a reader finds in the printed text is what is found in the layout. -/
theorem walk_emit : (x : List El) → (s : PState) → (n : Nat) → (ts : List Token) →
    (∀ e ∈ x, e.clean = true) → s.sfx = [] →
    ts.map (fun t => (linesBeforeToken t, outTok t)) = lineFeeds n (printEls s x) →
    ∃ s', walk ⟨n, s.started, s.emptyLine⟩ x ts = some (s', [])
  | [], s, n, ts, _, hs, h => by
    rw [printEls, flush, hs, printSuffixes] at h
    have : ts = [] := by simpa [lineFeeds] using h
    subst this
    exact ⟨_, rfl⟩
  | e :: x, s, n, ts, hx, hs, h => by
    have hx' : ∀ e ∈ x, e.clean = true := fun a ha => hx a (by simp [ha])
    have he := hx e (by simp)
    cases e with
    | tok t =>
      rw [printEls] at h
      simp only [printEl, printText, List.append_assoc, lineFeeds_ind, lineFeeds_gap, List.cons_append,
        List.nil_append, lineFeeds] at h
      cases ts with
      | nil => cases h
      | cons u us =>
        simp only [List.map_cons, List.cons.injEq, Prod.mk.injEq] at h
        obtain ⟨s', hw⟩ := walk_emit x _ 0 us hx' (by exact hs) h.2
        refine ⟨s', ?_⟩
        rw [walk, if_pos ⟨h.1.2, h.1.1⟩]
        exact hw
    | space =>
      rw [printEls] at h
      exact walk_emit x (printSpace s) n ts hx' hs h
    | nl e i =>
      rw [printEls] at h
      simp only [printEl, flush, hs, printSuffixes, printNl, List.nil_append, List.append_assoc,
        lineFeeds_rnl] at h
      exact walk_emit x _ _ ts hx' rfl h
    | rnl =>
      rw [printEls] at h
      simp only [printEl, printText, List.append_assoc, lineFeeds_ind, lineFeeds_gap, List.cons_append,
        List.nil_append, lineFeeds] at h
      exact walk_emit x _ (n + 1) ts hx' (by exact hs) h
    | _ => cases he

theorem lineFeeds_toks (n : Nat) (z : List El) : (lineFeeds n z).map Prod.snd = printedToks z := by
  induction z generalizing n with
  | nil => rfl
  | cons e z ih => cases e <;> simp [lineFeeds, printedToks, ih] <;> exact ih _

/-! ## Tokens of the printed text -/

/-- Read as a token, it is printed as it is. -/
def Tok.stays (t : Tok) : Prop := outTok t.plain = t

theorem edits_stays {st : Settings.AssignmentStyle} {a b : List Tok} (h : Edits st a b)
    (ha : ∀ t ∈ a, t.stays) : ∀ t ∈ b, t.stays := by
  induction h with
  | nil => exact ha
  | same t _ ih =>
    intro u hu
    rcases List.mem_cons.1 hu with rfl | hu
    · exact ha _ (by simp)
    · exact ih (fun t ht => ha t (by simp [ht])) u hu
  | arrow t _ _ _ ih =>
    intro u hu
    rcases List.mem_cons.1 hu with rfl | hu
    · exact rfl
    · exact ih (fun t ht => ha t (by simp [ht])) u hu
  | equal t _ _ _ ih =>
    intro u hu
    rcases List.mem_cons.1 hu with rfl | hu
    · exact rfl
    · exact ih (fun t ht => ha t (by simp [ht])) u hu
  | braces _ _ ih1 ih2 =>
    intro u hu
    simp only [List.mem_cons, List.mem_append] at hu
    rcases hu with rfl | hu | rfl | hu
    · exact rfl
    · exact ih1 (fun t ht => ha t (by simp [ht])) u hu
    · exact rfl
    · exact ih2 (fun t ht => ha t (by simp [ht])) u hu

/-! ## The file -/

theorem lineEls_hard (m : PMode) (i : Nat) : lineEls m i .hard = [.nl false i] := rfl

theorem suppressed_free {es : Exprs} (h : es.comments = []) : rootSuppressed o es = false := by
  cases es with
  | nil => rfl
  | cons e es =>
    simp only [Exprs.comments, List.append_eq_nil_iff] at h
    have h1 : e.ann.all = [] := by
      have := h.1
      cases e <;> simp_all [Expr.ann, Expr.comments]
    simp [rootSuppressed, (Ann.all_nil h1).1]

theorem same_root {x : Root} (ha : x.ann = {}) (hc : x.es.comments = []) :
    Same (fmtRoot o x) (fmtExprs o {} true true x.es ⊹ .line .hard) := by
  unfold fmtRoot
  rw [suppressed_free hc, ha, if_neg (by decide)]
  exact same_node

/-- `Rereads` after comments have been attached: there are none. -/
structure ReadBack (out : List El) (y : Root) : Prop where
  ann : y.ann = {}
  comments : y.es.comments = []
  trivia : ∀ t ∈ y.es.tokens, hasComment t.leading = false ∧ hasComment t.trailing = false
  tokens : y.es.tokens.map (fun t => (linesBeforeToken t, outTok t)) = lineFeeds 0 out
  gram : y.es.gram = true
  fits : Fits (shapes .top .free y.es) (seen .fresh out)

theorem trivia_free {x : Root} (h : x.sourceComments = []) :
    ∀ t ∈ x.es.tokens, hasComment t.leading = false ∧ hasComment t.trailing = false := by
  intro t ht
  simp only [Root.sourceComments, commentTexts, List.map_eq_nil_iff, List.filter_eq_nil_iff] at h
  have key : ∀ p ∈ t.leading ++ t.trailing, ¬ (p.kind == .comment) = true := fun p hp =>
    h p (List.mem_append_left _ (List.mem_flatMap.2 ⟨t, ht, hp⟩))
  exact ⟨List.any_eq_false.2 (fun p hp => key p (by simp [hp])),
    List.any_eq_false.2 (fun p hp => key p (by simp [hp]))⟩

theorem attach_free {x : Root} (h : x.sourceComments = []) :
    x.attach.ann = {} ∧ x.attach.es.comments = [] := by
  have h1 := attach_comments x
  rw [h] at h1
  have h2 := List.Perm.eq_nil h1
  simp only [texts, List.append_eq_nil_iff, List.map_eq_nil_iff] at h2
  exact ⟨ann_free h2.1, h2.2⟩

theorem attach_tokens (x : Root) : x.attach.es.tokens = x.es.tokens := annotates_tokens _ _ _ _

theorem Rereads.back {out : List El} {y : Root} (h : Rereads out y) : ReadBack out y.attach where
  ann := (attach_free h.comments).1
  comments := (attach_free h.comments).2
  trivia := by rw [attach_tokens]; exact trivia_free h.comments
  tokens := by rw [attach_tokens]; exact h.tokens
  gram := (grams_annotate _ _ _ _).trans h.gram
  fits := by
    have h2 : shapes .top .free y.attach.es = shapes .top .free y.es := shapes_annotate _ _ _ _ _ _
    rw [h2]
    exact h.fits

/-- What is read in a formatted file is formatted in the same way. -/
theorem again_root {x y : Root} {els : List El} (hper : o.persistent = true) (ha : x.ann = {})
    (hc : x.es.comments = []) (ho : x.es.ordinary o = true) (hg : x.es.gram = true)
    (hcl : x.es.clear o = true) (hb : ∀ t ∈ x.es.tokens, Bland t)
    (h : Prints .expanded 0 (fmtRoot o x) els) (hy : ReadBack (emit els) y) :
    Again .expanded 0 (fmtRoot o x) (fmtRoot o y) els := by
  have hS := simple_exprs x.es hc ho (gram_calms _ hg hc) hb
  have hL := (prints_lays _ _ _ _ h).2.1 rfl
  have hp : AllPlain y.es.tokens := hy.trivia
  -- the layout
  obtain ⟨x1, x2, rfl, h1, h2⟩ := ((same_root ha hc).prints _ _ _).1 h
  have hx2 : x2 = [.nl false 0] := h2
  subst hx2
  have hcl1 := clean_fmtExprs x.es {} true true hS ((prints_lays _ _ _ _ h1).2.1 rfl)
  obtain ⟨s', hw⟩ := walk_emit (x1 ++ [El.nl false 0]) {} 0 y.es.tokens (by
    intro e he
    rcases List.mem_append.1 he with he | he
    · exact hcl1 e he
    · cases List.mem_singleton.1 he; rfl) rfl hy.tokens
  obtain ⟨s1, ts1, hw1, hw2⟩ := walk_append hw
  have : ts1 = [] := by cases hw2; rfl
  subst this
  obtain ⟨-, es', hE⟩ := core_exprs hper x.es {} true true .expanded 0 x1 _ _ s1 [] hS hp nofun
    ⟨h1, nofun, nofun, hw1⟩
  have htoks : y.es.tokens = es'.tokens := by rw [hE.toks, List.append_nil]
  obtain ⟨e1, e2, e3, e4⟩ := Exprs.Simple.ok es' hE.simple
  -- what is read is the program that was followed
  have hAg : Again .expanded 0 (fmtRoot o x) (fmtRoot o ⟨{}, es', y.eof⟩) (x1 ++ [.nl false 0]) :=
    (hE.again.cat (Again.mk (d := .line .hard) (d' := .line .hard) h2 nofun (.refl _))).same (same_root ha hc)
      (same_root (x := ⟨{}, es', y.eof⟩) rfl e4)
  obtain ⟨es1, hB, hf⟩ := C38_reads_calm_partial o ⟨{}, es', y.eof⟩ .expanded _ (suppressed_free e4) e2 e1
    ((prints_lays _ _ _ _ hAg.prints).2.1 rfl)
  have ht1 : es1.tokens.map outTok = es'.tokens.map outTok := by
    rw [← htoks, ← shapes_toks .top .free, ← fits_toks hf, ← shapes_toks .top .free y.es, ← fits_toks hy.fits]
  have hb1 : es1.bare = es'.bare := (keeps_exprs o es' es1 true hB).2 ht1
  obtain ⟨es2, hR, hb2⟩ := hE.rew
  have hg2 := C39_grammar o x.es es2 hg hcl (rews_becomes o _ _ _ _ hR)
  have hg1 : es1.gram = true := by rw [← bares_gram, hb1, ← hb2, bares_gram, hg2]
  have hbare : y.es.bare = es'.bare := by
    have h3 := readFile_gram hy.gram hy.fits
    rw [readFile_gram hg1 hf] at h3
    rw [← hb1]
    exact (Option.some.inj h3).symm
  have hes : y.es = es' := same_exprs es' y.es e4 hy.comments hbare htoks
  obtain ⟨ya, yes, yeof⟩ := y
  have hya : ya = {} := hy.ann
  have hes : yes = es' := hes
  subst hya
  subst hes
  exact hAg

end Verif.Format
