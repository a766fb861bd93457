import Verif.Lemmas.NotedSaid

/-!
# The program with comments

For a program with statements that stand for comments, the program with these comments in front of the
statements that follow.
-/

namespace Verif.Format
open Verif.Syntax

variable {o : Opts} {N : Nat}

/-! ## Where the comments are -/

theorem put_inside : (ps : AParts) → ∀ {f : Bool}, ps.Put false f true → ∀ b, ps.Put false f b
  | ps, _, h, true => h
  | .nil, _, _, false => trivial
  | .tok t ps, _, h, false => ⟨h.1, nofun, h.2.2⟩
  | .sub x ps, _, h, false => ⟨h.1, ⟨h.2.1.1, nofun⟩, put_inside ps h.2.2 _⟩

theorem put_first : (ps : AParts) → ps.Put true false true → ps.Put true true true
  | .nil, _ => trivial
  | .tok t ps, h => ⟨h.1, h.2.1, put_first ps h.2.2⟩
  | .sub x ps, h => ⟨h.1, ⟨h.2.1.1, h.2.1.2.1, by
      obtain ⟨t, h1, h2, -⟩ := h.2.1.2.2
      exact ⟨t, h1, h2, nofun⟩⟩, h.2.2⟩

theorem put_tok {t : Token} {ps : AParts} {f b : Bool} (ht : Trim t) (h : ps.Put false f true) : (AParts.tok t ps).Put false f b :=
  ⟨ht.trailing, fun _ => ht.quiet, h⟩

theorem put_one {t : Token} {f b : Bool} (ht : Trim t) : (AParts.one t).Put false f b := put_tok ht trivial

theorem put_sub {x : AView} {ps : AParts} {f b : Bool} (h1 : x.Put) (h2 : x.ann = {})
    (h3 : ∀ t, x.erase.first = some t → hasComment t.leading = false) (h : ps.Put false false true) :
    (AParts.sub x ps).Put false f b :=
  ⟨h1, ⟨h2, fun _ => h3⟩, put_inside ps h _⟩

/-! ## Parts of the program -/

structure SaidE (o : Opts) (N : Nat) (w : Bool) (e0 e : Expr) : Prop where
  ann : e.ann = {}
  voiced : e.voiced N hush = e0
  noted : e.Noted o N
  put : e.aview.Put
  head : ∃ t ts ts0, e.tokens = t :: ts ∧ e0.tokens = t :: ts0 ∧ Trim t
  told : Told N e0.tokens e.tokens
  mute : w = false → e.comments = []

structure SaidI (o : Opts) (N : Nat) (w : Bool) (xs0 xs : Items) : Prop where
  voiced : xs.voiced N = xs0
  noted : xs.Noted o N
  put : ∀ call r f b, Trim r → (xs.aview call r).Put false f b
  told : Told N xs0.tokens xs.tokens
  mute : w = false → xs.comments = []

structure SaidA (o : Opts) (N : Nat) (w : Bool) (x0 x : Arg) : Prop where
  ann : ∀ call, (x.aview call).ann = {}
  voiced : x.voiced N = x0
  noted : x.Noted o N
  put : ∀ call, (x.aview call).Put
  first : ∀ call t, (x.aview call).erase.first = some t → hasComment t.leading = false
  told : Told N x0.tokens x.tokens
  mute : w = false → x.comments = []

/-- `f`: at the start of the file. -/
structure SaidS (o : Opts) (N : Nat) (w f : Bool) (P : List (Nat × List Byte)) (es0 es : Exprs) : Prop where
  voiced : es.voiced N = voices N P es0
  noted : es.Noted o N
  put : ∀ r, Trim r → (es.aview r).Put true f true
  trail : ∀ t ∈ es.tokens, t.trailing = []
  text : raws es.tokens = (pieces P).map pieceEl ++ (raws es0.tokens).map (El.tell N)
  own : ∀ t ∈ es.tokens.tail, Verif.Parser.CommentsOnOwnLine t.leading
  own0 : f = false → ∀ t ∈ es.tokens, Verif.Parser.CommentsOnOwnLine t.leading
  mute : w = false → es.comments = []

variable {w : Bool}

theorem SaidE.quiet {e0 e : Expr} (h : SaidE o N w e0 e) : quiet e.tokens = true := by
  obtain ⟨t, ts, ts0, h1, h2, h3⟩ := h.head
  rw [h1]
  simp [Verif.Format.quiet, h3.quiet]

theorem SaidE.direct {e0 e : Expr} (h : SaidE o N w e0 e) : commentsDirect e.tokens = false := by
  obtain ⟨t, ts, ts0, h1, h2, h3⟩ := h.head
  have h4 := h.told.trail
  unfold commentsDirect
  rw [Bool.or_eq_false_iff]
  constructor
  · rw [h1]; exact h3.quiet
  · cases h5 : e.tokens.getLast? with
    | none => rfl
    | some u =>
      simp only [h4 u (List.mem_of_getLast? h5)]
      rfl

theorem SaidE.aside {e0 e : Expr} (h : SaidE o N w e0 e) : e.Aside := ⟨h.ann, h.quiet⟩

theorem SaidE.first {e0 e : Expr} (h : SaidE o N w e0 e) :
    ∀ t, e.aview.erase.first = some t → hasComment t.leading = false := by
  intro t ht
  obtain ⟨u, ts, ts0, h1, h2, h3⟩ := h.head
  rw [aview_first, h1] at ht
  injection ht with ht
  rw [← ht]
  exact h3.quiet

theorem SaidE.sub {e0 e : Expr} (h : SaidE o N w e0 e) {ps : AParts} {f b : Bool} (hp : ps.Put false false true) :
    (AParts.sub e.aview ps).Put false f b :=
  put_sub h.put ((aview_ann e).trans h.ann) h.first hp

theorem SaidE.last {e0 e : Expr} (h : SaidE o N w e0 e) {f b : Bool} : (AParts.sub e.aview .nil).Put false f b :=
  h.sub trivial

theorem SaidE.begins {e0 e : Expr} (h : SaidE o N w e0 e) (ts ts0 : List Token) :
    ∃ t us us0, e.tokens ++ ts = t :: us ∧ e0.tokens ++ ts0 = t :: us0 ∧ Trim t := by
  obtain ⟨t, us, us0, h1, h2, h3⟩ := h.head
  exact ⟨t, us ++ ts, us0 ++ ts0, by rw [h1]; rfl, by rw [h2]; rfl, h3⟩

/-! ## Braces around braces around a name -/

theorem notes_len {k : Nat → Exprs} {L : Nat} (h : ∀ n, ((k n).bare.sorts N).length = L) : ∀ (cs : List Comment) (n : Nat),
    ((notes N n cs k).bare.sorts N).length = cs.length + L
  | [], n => by simp [notes, h]
  | c :: cs, n => by
    simp only [notes, Exprs.bare, Exprs.sorts, List.length_cons, notes_len h cs]
    omega

theorem notes_len2 {k : Nat → Exprs} {L : Nat} (h : ∀ n, ((k n).bare.sorts2 N).length = L) : ∀ (cs : List Comment) (n : Nat),
    ((notes N n cs k).bare.sorts2 N).length = cs.length + L
  | [], n => by simp [notes, h]
  | c :: cs, n => by
    simp only [notes, Exprs.bare, Exprs.sorts2, List.length_cons, notes_len2 h cs]
    omega

theorem bare_led {a : Ann} (h : a.Led o) (h1 : a.leading = []) : a = {} := by
  obtain ⟨l, d, t⟩ := a
  obtain ⟨h2, h3, -⟩ := h
  simp only at h1 h2 h3
  subst h1 h2 h3
  rfl

theorem cup_voiced {es : Exprs} (hn : es.Noted o N) (hc : ¬ cupped ((es.voiced N).bare.sorts2 N))
    (h : (curlyCurly true es).isSome = true) : es.comments = [] := by
  obtain ⟨-, ia, il, ea, t, ir, rfl⟩ := (curly_iff _ _).1 h
  have hn1 := hn.1
  have hn2 := hn1.2.2.2.1
  have hs := voiced_sort (mild_fresh 0) hn2.1
  have hf := filter_voiced2 (es := .nil) hn1
  have hg := filter_voiced (es := .nil) hn2.1
  have hl2 : (((Exprs.cons (.braced ia il (.cons (.atom ea .rIdentifier t) .nil) ir) .nil).voiced N).bare.sorts2 N).length =
      ia.leading.length + 1 := by
    rw [Exprs.voiced]
    refine notes_len2 (L := 1) ?_ _ _
    intro n; rfl
  have hl1 : (((Exprs.cons (.atom ea .rIdentifier t) .nil).voiced N).bare.sorts N).length = ea.leading.length + 1 := by
    rw [Exprs.voiced]
    refine notes_len (L := 1) ?_ _ _
    intro n; rfl
  have h1 : ia.leading = [] ∧ ea.leading = [] := by
    apply Classical.byContradiction
    intro h2
    apply hc
    refine ⟨2, _, hf, ?_, ?_⟩
    · rw [hg]
      simp only [Expr.voiced, Expr.bare, Expr.sort] at hs ⊢
      split at hs
      · exact absurd rfl hs
      · rename_i h3
        rw [if_neg h3]
        rfl
    · rw [hl2, hl1]
      apply Classical.byContradiction
      intro h3
      apply h2
      constructor
      · apply List.eq_nil_of_length_eq_zero; omega
      · apply List.eq_nil_of_length_eq_zero; omega
  rw [bare_led hn1.1 h1.1, bare_led hn2.1.1 h1.2]
  rfl

theorem len_short {t : Token} (h : (bareTok t).text.length ≤ N) : Short N t := by
  simp only [Short, Tok.isNote]
  simpa [bareTok, Tok.plain] using h

theorem Trim.fix {t : Token} (h : Trim t) : hush t = t := h.1

end Verif.Format
