import Verif.Lemmas.LexSource
import Verif.Lemmas.ReaderSound
import Verif.Lemmas.StableRoot

/-!
# Lexing the text of a tree

If the tokens that are read in a text are those of a tree for the text, then each is read where it is in the
tree.
-/

namespace Verif.Format
open Verif.Syntax

/-- After a comment comes a line feed or nothing. -/
def Ended : List El → Prop
  | [] => True
  | .comment _ :: es => (∀ b, (render es).head? = some b → b = 10) ∧ Ended es
  | _ :: es => Ended es

theorem openString_false {st : List Tok} (h : (openString st).isSome = false) : openString st = none := by
  cases h' : openString st with
  | none => rfl
  | some q => rw [h'] at h; cases h

theorem lex_tok {st : List Tok} (hst : Stack st) {m : Nat} {fresh : Bool} {t : Tok} {rest : List Byte} {S : Seen}
    {ts : List Tok} (h : lexFrom m st fresh (t.text ++ rest) = some S) (hS : S.map Prod.snd = t :: ts) :
    ∃ n S', m = n + 1 ∧ S = (fresh, t) :: S' ∧ nextTok st (t.text ++ rest) = some (t, rest) ∧
      lexFrom n (openAfter st t) false rest = some S' := by
  cases m with
  | zero => cases h
  | succ m =>
    cases S with
    | nil => cases hS
    | cons p S =>
      obtain ⟨f, t'⟩ := p
      simp only [List.map_cons, List.cons.injEq] at hS
      obtain ⟨rfl, -⟩ := hS
      have fin : ∀ (r : Option (Tok × List Byte)), r = nextTok st (t'.text ++ rest) →
          (match r with
            | none => none
            | some (t', rest) =>
              (lexFrom m (openAfter st t') false rest).map ((fresh, t') :: ·)) =
            some ((f, t') :: S) →
          fresh = f ∧ nextTok st (t'.text ++ rest) = some (t', rest) ∧
            lexFrom m (openAfter st t') false rest = some S := by
        intro r hr hm
        cases hr' : r with
        | none => rw [hr'] at hm; cases hm
        | some p =>
          obtain ⟨u, rest'⟩ := p
          rw [hr'] at hm
          simp only at hm
          cases hl : lexFrom m (openAfter st u) false rest' with
          | none => rw [hl] at hm; cases hm
          | some out =>
            rw [hl] at hm
            simp only [Option.map_some, Option.some.injEq, List.cons.injEq, Prod.mk.injEq] at hm
            obtain ⟨⟨rfl, rfl⟩, rfl⟩ := hm
            have hnx : nextTok st (u.text ++ rest) = some (u, rest') := by rw [← hr, hr']
            have := ((nextTok_iff hst.1 _ _ _).1 hnx).1
            have := List.append_cancel_left this
            subst this
            exact ⟨rfl, hnx, hl⟩
      by_cases hs : (openString st).isSome = true
      · rw [lexFrom_string hs] at h
        obtain ⟨rfl, h1, h2⟩ := fin _ rfl h
        exact ⟨m, S, rfl, rfl, h1, h2⟩
      · have hs' : openString st = none := openString_false (by simpa using hs)
        obtain ⟨b, r, htx, hstart⟩ := lex_head _ _ _ _ _ _ _ hs' h
        rw [htx, List.cons_append, lexFrom_code hs'] at h
        rw [if_neg (fun h => hstart (start_blank (by rcases h with h | h <;> simp [h]))),
          if_neg (fun h => hstart (start_blank (by simp [h]))),
          if_neg (fun h => hstart (start_blank (by simp [h])))] at h
        obtain ⟨rfl, h1, h2⟩ := fin _ (by rw [htx]; rfl) h
        exact ⟨m, S, rfl, rfl, h1, h2⟩

/-- If the tokens are right then each is read as such, and none is in a comment. -/
theorem lex_parted : ∀ (els : List El) (c : Bool) (st : List Tok) (fresh : Bool) (n : Nat) (S : Seen),
    (∀ e ∈ els, Trivial e) → Ended els → (c = true → ∀ b, (render els).head? = some b → b = 10) →
    Unbroken (openString st).isSome els → Stack st → (render els).length < n →
    (c = true → openString st = none) → lexFrom n st fresh (render els) = some S →
    S.map Prod.snd = printedToks els → Parted st els ∧ Hushed c els
  | [], _, _, _, _, _, _, _, _, _, _, _, _, _, _ => ⟨trivial, trivial⟩
  | .tok t :: es, c, st, fresh, n, S, hp, he, hc, hu, hst, hn, hs, h, hS => by
    have hc : c = false := by
      cases c with
      | false => rfl
      | true =>
        exfalso
        cases S with
        | nil => cases hS
        | cons p S =>
          obtain ⟨f, t'⟩ := p
          simp only [List.map_cons, printedToks, List.cons.injEq] at hS
          obtain ⟨rfl, -⟩ := hS
          obtain ⟨b, r, htx, hstart⟩ := lex_head _ _ _ _ _ _ _ (hs rfl) h
          have := hc rfl b (by simp [render, htx])
          exact hstart (start_blank (.inl this))
    subst hc
    obtain ⟨m, S', rfl, rfl, hnx, hl⟩ := lex_tok hst (by simpa only [render] using h) hS
    obtain ⟨-, h1, h2⟩ := (nextTok_iff hst.1 _ _ _).1 hnx
    obtain ⟨hst', hopen⟩ := stack_after hst h1
    have hlen : 0 < t.text.length := List.length_pos_iff.2 (h1.ne hst.1)
    have hn' : t.text.length + (render es).length < m + 1 := by
      simpa [render] using hn
    obtain ⟨i1, i2⟩ := lex_parted es false (openAfter st t) false m S'
      (fun e he => hp e (List.mem_cons_of_mem _ he)) he nofun (by rw [hopen]; exact hu) hst' (by omega)
      nofun hl (by simpa [printedToks] using hS)
    exact ⟨⟨h1, h2, i1⟩, rfl, i2⟩
  | .comment t :: es, c, st, fresh, n, S, hp, he, hc, hu, hst, hn, _, h, hS => by
    obtain ⟨hu0, hu⟩ := hu
    have hs := openString_false hu0
    obtain ⟨r, rfl, hr⟩ := hp _ (List.mem_cons_self ..)
    have hn' : r.length + 1 + (render es).length < n := by
      have : (render (El.comment (35 :: r) :: es)).length = r.length + 1 + (render es).length := by
        simp [render, Nat.add_right_comm]
      omega
    cases n with
    | zero => omega
    | succ n =>
      rw [render, List.cons_append, lexFrom_code hs] at h
      rw [if_neg (by decide), if_neg (by decide), if_pos rfl, dropLine_append hr] at h
      have hd : (render es).dropWhile (fun c => c != 10) = render es := by
        cases hr : render es with
        | nil => rfl
        | cons b bs =>
          have := he.1 b (by rw [hr]; rfl)
          subst this
          rfl
      rw [hd] at h
      exact lex_parted es true st fresh n S (fun e he => hp e (List.mem_cons_of_mem _ he)) he.2
        (fun _ => he.1) (by rw [hs]; exact hu) hst (by omega) (fun _ => hs) h hS
  | .blank bs :: es, c, st, fresh, n, S, hp, he, hc, hu, hst, hn, _, h, hS => by
    obtain ⟨hu0, hu⟩ := hu
    have hs := openString_false hu0
    have hb : ∀ b ∈ bs, isBlank b = true ∨ b = 59 := hp _ (List.mem_cons_self ..)
    have hn' : bs.length + (render es).length < n := by
      have : (render (El.blank bs :: es)).length = bs.length + (render es).length := by
        simp [render]
      omega
    rw [render, show n = (n - bs.length) + bs.length by omega, lex_blanks hs _ _ _ _ hb] at h
    refine lex_parted es c st _ _ S (fun e he => hp e (List.mem_cons_of_mem _ he)) he ?_
      (by rw [hs]; exact hu) hst (by omega) (fun _ => hs) h hS
    intro hc' b hbb
    cases bs with
    | nil => exact hc hc' b hbb
    | cons d bs =>
      have : d = 10 := hc hc' d rfl
      exact absurd (this ▸ List.mem_cons_self ..) (blank_no_newline hb)
  | .rnl :: es, c, st, fresh, n, S, hp, he, hc, hu, hst, hn, _, h, hS => by
    obtain ⟨hu0, hu⟩ := hu
    have hs := openString_false hu0
    have hn' : 1 + (render es).length < n := by
      have : (render (El.rnl :: es)).length = 1 + (render es).length := by
        simp [render, Nat.add_comm]
      omega
    cases n with
    | zero => omega
    | succ n =>
      rw [render, lexFrom_code hs] at h
      rw [if_pos (.inl rfl)] at h
      exact lex_parted es false st true n S
        (fun e he => hp e (List.mem_cons_of_mem _ he)) he nofun (by rw [hs]; exact hu) hst (by omega)
        nofun h hS
  | .suffix .. :: es, c, st, fresh, n, _, hp, _, _, _, _, _, _, _, _ =>
    (hp _ (List.mem_cons_self ..)).elim
  | .space :: es, c, st, fresh, n, _, hp, _, _, _, _, _, _, _, _ =>
    (hp _ (List.mem_cons_self ..)).elim
  | .nl .. :: es, c, st, fresh, n, _, hp, _, _, _, _, _, _, _, _ =>
    (hp _ (List.mem_cons_self ..)).elim

/-- If the tokens are right then they are read as they are printed. -/
theorem lex_whole {els : List El} {S : Seen} (ht : ∀ e ∈ els, Trivial e) (he : Ended els)
    (hu : Unbroken false els) (h : lexText (render els) = some S) (hS : S.map Prod.snd = printedToks els) :
    S = seen .fresh els := by
  obtain ⟨h1, h2⟩ := lex_parted els false [] true _ S ht he nofun hu Stack.nil (Nat.lt_succ_self _) nofun h hS
  have := lex_tidy els false [] true _ h1 ht h2 hu Stack.nil (Nat.lt_succ_self _) nofun
  simp only [Bool.false_eq_true, if_false] at this
  unfold lexText at h
  rw [h] at this
  exact Option.some.inj this

/-- The bytes of the tokens are bytes of the text. -/
theorem lex_bytes : ∀ (n : Nat) (st : List Tok) (fresh : Bool) (bs : List Byte) (S : Seen), Stack st →
    lexFrom n st fresh bs = some S → ∀ q ∈ S, ∀ b ∈ q.2.text, b ∈ bs
  | 0, _, _, _, _, _, h => by cases h
  | n + 1, st, fresh, bs, S, hst, h => by
    have fin : ∀ bs : List Byte, (match nextTok st bs with
          | none => none
          | some (t, rest) => (lexFrom n (openAfter st t) false rest).map ((fresh, t) :: ·)) = some S →
        ∀ q ∈ S, ∀ b ∈ q.2.text, b ∈ bs := by
      intro bs h
      split at h
      · cases h
      · next t rest hn =>
        obtain ⟨h0, h1, h2⟩ := (nextTok_iff hst.1 _ _ _).1 hn
        obtain ⟨S', hS', rfl⟩ := Option.map_eq_some_iff.1 h
        have ih := lex_bytes n _ _ _ _ (stack_after hst h1).1 hS'
        subst h0
        intro q hq b hb
        rcases List.mem_cons.1 hq with rfl | hq
        · exact List.mem_append_left _ hb
        · exact List.mem_append_right _ (ih q hq b hb)
    by_cases hs : (openString st).isSome = true
    · rw [lexFrom_string hs] at h
      exact fin bs h
    · have hs : openString st = none := openString_false (by simpa using hs)
      cases bs with
      | nil => rw [lexFrom_nil hs] at h; cases h; simp
      | cons b bs =>
        rw [lexFrom_code hs] at h
        split at h
        · exact fun q hq c hc => List.mem_cons_of_mem _ (lex_bytes n _ _ _ _ hst h q hq c hc)
        · split at h
          · exact fun q hq c hc => List.mem_cons_of_mem _ (lex_bytes n _ _ _ _ hst h q hq c hc)
          · split at h
            · exact fun q hq c hc => List.mem_cons_of_mem _
                ((List.dropWhile_sublist _).subset (lex_bytes n _ _ _ _ hst h q hq c hc))
            · exact fin _ h

theorem no_crlf {w : List Byte} (h : 13 ∉ w) : ∀ a b, w ≠ a ++ 13 :: 10 :: b := by
  rintro a b rfl
  exact h (by simp)

theorem lex_plainEnds {bs : List Byte} {S : Seen} (h13 : 13 ∉ bs) (h : lexText bs = some S) : PlainEnds S := by
  intro q hq
  have hb := lex_bytes _ _ _ _ _ Stack.nil h q hq
  have : outTok q.2.plain = ⟨q.2.plain.kind, (outTok q.2.plain).text⟩ := rfl
  rw [this, outTok_text (no_crlf fun hc => h13 (hb 13 hc))]
  rfl

/-! ## Shapes -/

theorem setHead_fst {p : Pos} {a b : List (Pos × Tok)} (h : a.map Prod.fst = b.map Prod.fst) :
    (setHead p a).map Prod.fst = (setHead p b).map Prod.fst := by
  cases a <;> cases b <;> simp_all [setHead]

mutual
theorem bare_shape : (e : Expr) → (g : Region) → (shape g e.bare).map Prod.fst = (shape g e).map Prod.fst
  | .atom .., _ => rfl
  | .str _ _ none _, _ => rfl
  | .str _ _ (some _) _, _ => rfl
  | .paren a l e r, g => by simp [Expr.bare, shape, bare_shape e]
  | .braced a l es r, g => by simp [Expr.bare, shape, bares_shape es]
  | .unary a p e, g => by simp [Expr.bare, shape, bare_shape e]
  | .binary a x p y, g => by simp [Expr.bare, shape, bare_shape x, bare_shape y]
  | .sel a .extract x p y, g => by simp [Expr.bare, shape, bare_shape x, bare_shape y]
  | .sel a .namespace x p y, g => by
    simp [Expr.bare, shape, bare_shape x, setHead_fst (bare_shape y g)]
  | .call a k f aa l items r, g => by simp [Expr.bare, shape, bare_shape f, bareItems_shape items]
  | .func a kw pa l items r b, g => by simp [Expr.bare, shape, bare_shape b, bareItems_shape items]
  | .ite a kw l c r t, g => by simp [Expr.bare, shape, bare_shape c, bare_shape t]
  | .itee a kw l c r t ea el e, g => by simp [Expr.bare, shape, bare_shape c, bare_shape t, bare_shape e]
  | .for_ a kw l v i s r b, g => by simp [Expr.bare, shape, bare_shape v, bare_shape s, bare_shape b]
  | .while_ a kw l c r b, g => by simp [Expr.bare, shape, bare_shape c, bare_shape b]
  | .repeat_ a kw b, g => by simp [Expr.bare, shape, bare_shape b]
theorem bares_shape : (es : Exprs) → (g : Region) → (p : Pos) →
    (shapes g p es.bare).map Prod.fst = (shapes g p es).map Prod.fst
  | .nil, _, _ => rfl
  | .cons e es, g, p => by
    simp [Exprs.bare, shapes, setHead_fst (bare_shape e g), bares_shape es]
theorem bareItems_shape : (xs : Items) → (shapeItems xs.bare).map Prod.fst = (shapeItems xs).map Prod.fst
  | .nil => rfl
  | .last x => by simp [Items.bare, shapeItems, bareArg_shape x]
  | .cons x s xs => by simp [Items.bare, shapeItems, bareArg_shape x, bareItems_shape xs]
theorem bareArg_shape : (x : Arg) → (shapeArg x.bare).map Prod.fst = (shapeArg x).map Prod.fst
  | .hole _ => rfl
  | .val _ e => by simp [Arg.bare, shapeArg, bare_shape e]
  | .name _ _ n q => by simp [Arg.bare, shapeArg, bare_shape n]
  | .named _ _ n q e => by simp [Arg.bare, shapeArg, bare_shape n, bare_shape e]
  | .pdef _ n _ q e => by simp [Arg.bare, shapeArg, bare_shape n, bare_shape e]
end

mutual
theorem bare_tokens : (e : Expr) → e.bare.tokens = e.tokens.map bareTok
  | .atom .. => rfl
  | .str _ _ none _ => rfl
  | .str _ _ (some _) _ => rfl
  | .paren a l e r => by simp [Expr.bare, Expr.tokens, bare_tokens e]
  | .braced a l es r => by simp [Expr.bare, Expr.tokens, bares_tokens es]
  | .unary a p e => by simp [Expr.bare, Expr.tokens, bare_tokens e]
  | .binary a x p y => by simp [Expr.bare, Expr.tokens, bare_tokens x, bare_tokens y]
  | .sel a k x p y => by simp [Expr.bare, Expr.tokens, bare_tokens x, bare_tokens y]
  | .call a k f aa l items r => by simp [Expr.bare, Expr.tokens, bare_tokens f, bareItems_tokens items]
  | .func a kw pa l items r b => by simp [Expr.bare, Expr.tokens, bare_tokens b, bareItems_tokens items]
  | .ite a kw l c r t => by simp [Expr.bare, Expr.tokens, bare_tokens c, bare_tokens t]
  | .itee a kw l c r t ea el e => by
    simp [Expr.bare, Expr.tokens, bare_tokens c, bare_tokens t, bare_tokens e]
  | .for_ a kw l v i s r b => by
    simp [Expr.bare, Expr.tokens, bare_tokens v, bare_tokens s, bare_tokens b]
  | .while_ a kw l c r b => by simp [Expr.bare, Expr.tokens, bare_tokens c, bare_tokens b]
  | .repeat_ a kw b => by simp [Expr.bare, Expr.tokens, bare_tokens b]
theorem bares_tokens : (es : Exprs) → es.bare.tokens = es.tokens.map bareTok
  | .nil => rfl
  | .cons e es => by simp [Exprs.bare, Exprs.tokens, bare_tokens e, bares_tokens es]
theorem bareItems_tokens : (xs : Items) → xs.bare.tokens = xs.tokens.map bareTok
  | .nil => rfl
  | .last x => by simp [Items.bare, Items.tokens, bareArg_tokens x]
  | .cons x s xs => by simp [Items.bare, Items.tokens, bareArg_tokens x, bareItems_tokens xs]
theorem bareArg_tokens : (x : Arg) → x.bare.tokens = x.tokens.map bareTok
  | .hole _ => rfl
  | .val _ e => by simp [Arg.bare, Arg.tokens, bare_tokens e]
  | .name _ _ n q => by simp [Arg.bare, Arg.tokens, bare_tokens n]
  | .named _ _ n q e => by simp [Arg.bare, Arg.tokens, bare_tokens n, bare_tokens e]
  | .pdef _ n _ q e => by simp [Arg.bare, Arg.tokens, bare_tokens n, bare_tokens e]
end

theorem pairs_ext {a b : List (Pos × Tok)} (h1 : a.map Prod.fst = b.map Prod.fst)
    (h2 : a.map Prod.snd = b.map Prod.snd) : a = b := by
  induction a generalizing b with
  | nil => cases b with
    | nil => rfl
    | cons _ _ => cases h1
  | cons x a ih =>
    cases b with
    | nil => cases h1
    | cons y b =>
      simp only [List.map_cons, List.cons.injEq] at h1 h2
      rw [ih h1.2 h2.2, Prod.ext h1.1 h2.1]

/-- Programs that are the same without trivia have the same shapes. -/
theorem same_shapes {x y : Exprs} (g : Region) (p : Pos) (hb : x.bare = y.bare)
    (ht : x.tokens.map outTok = y.tokens.map outTok) : shapes g p x = shapes g p y :=
  pairs_ext (by rw [← bares_shape x, hb, bares_shape]) (by rw [shapes_toks, shapes_toks, ht])

end Verif.Format
