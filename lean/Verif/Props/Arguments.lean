import Verif.Props.Statements
import Verif.Lemmas.Arguments

/-!
# C78: comments stay with their arguments
-/

namespace Verif.Format
open Verif.Syntax Ex

/-- C78, which comments go where: the arguments and parameters of every list of the file keep their tokens and the
comments inside of them. Comments at the end of the line of an argument go after it, before or after the comma; those on
lines of their own go before the next argument, or after the last one; those after the opening parenthesis go before the
first argument. If an argument is left out, the comments in its place go after the argument before it, or if there is none,
or it is left out as well, to the empty place itself. -/
theorem C78_seats (x : Root) (hg : x.es.gram = true) (hc : commentsEnd x.es.tokens) :
    Both SeatedList x.es.lists x.attach.es.lists :=
  (alike_root x hg hc).mono fun _ _ h hne => (h hne).1

theorem divide_perm (p : Option Bool) (x : Arg) (ps : List Piece) :
    ((divide p x ps).1 ++ (divide p x ps).2).Perm (commentTexts ps) := by
  unfold divide
  split
  · split
    · simp
    · rw [commentTexts_lines]
  · simp

theorem beyond_perm (x : Arg) (s : Token) (h : x.isHole = false) :
    ((x.beyond false s).1 ++ (x.beyond false s).2).Perm (commentTexts (triviaAfter x.tokens ++ s.leading)) := by
  rw [Arg.beyond, h]
  simp only [Bool.false_eq_true, if_false]
  rw [commentTexts_lines]

/-- The seats share the comments between the arguments. -/
theorem seated_shared (r : Token) : (xs : Items) → (ys : List Arg) → (p : Option Bool) → (prev : List Piece) →
    (b c acc : List (List Byte)) → (b ++ c).Perm acc → Items.EndsWell xs → xs ≠ .nil →
    Seated (aheadFirst c (xs.seats p prev r).2) ys →
    Shared (b ++ (xs.seats p prev r).1) xs.args ys (xs.gaps acc prev r)
  | .nil, _, _, _, _, _, _, _, _, hne, _ => absurd rfl hne
  | .last x, [], _, _, _, _, _, _, _, _, h => by cases h
  | .last x, [y], p, prev, b, c, acc, hp, _, _, ⟨⟨h1, h2, h3, h4⟩, _⟩ => by
    have hd := divide_perm p x (prev ++ x.triviaBefore r)
    have key : ((b ++ (divide p x (prev ++ x.triviaBefore r)).1) ++ texts y.ann.leading).Perm
        (acc ++ commentTexts (prev ++ x.triviaBefore r)) := by
      rw [h2]
      refine List.Perm.trans ?_ (hp.append hd)
      refine List.perm_iff_count.2 fun a => ?_
      simp only [List.count_append]
      omega
    have hc : (texts y.comments).Perm
        (texts y.ann.leading ++ commentTexts (innerTrivia x.tokens) ++ texts y.ann.trailing) := by
      rw [h2, h3]; exact h4
    unfold Items.gaps
    cases hh : x.isHole with
    | true =>
      rw [if_pos rfl]
      refine ⟨⟨h1, ?_, hc⟩, ?_⟩
      · rw [Arg.triviaBefore, hh] at key
        show ((b ++ (divide _ _ (_ ++ Arg.triviaBefore _ _)).1) ++ _).Perm _
        rw [Arg.triviaBefore, hh]
        exact key
      rw [h3]
      show (x.beyond true r).1.Perm []
      rw [Arg.beyond, hh]
      exact .refl _
    | false =>
      rw [if_neg (by decide)]
      refine ⟨⟨h1, ?_, hc⟩, ?_⟩
      · rw [Arg.triviaBefore, hh] at key
        show ((b ++ (divide _ _ (_ ++ Arg.triviaBefore _ _)).1) ++ _).Perm _
        rw [Arg.triviaBefore, hh]
        exact key
      rw [h3]
      show (x.beyond true r).1.Perm _
      rw [Arg.beyond, hh]
      exact .refl _
  | .last x, y :: y' :: ys, _, _, _, _, _, _, _, _, h => by cases h.2
  | .cons x s xs, [], _, _, _, _, _, _, _, _, h => by cases h
  | .cons x s xs, y :: ys, p, prev, b, c, acc, hp, hw, _, ⟨⟨h1, h2, h3, h4⟩, h5⟩ => by
    have hd := divide_perm p x (prev ++ x.triviaBefore s)
    have key : ((b ++ (divide p x (prev ++ x.triviaBefore s)).1) ++ texts y.ann.leading).Perm
        (acc ++ commentTexts (prev ++ x.triviaBefore s)) := by
      rw [h2]
      refine List.Perm.trans ?_ (hp.append hd)
      refine List.perm_iff_count.2 fun a => ?_
      simp only [List.count_append]
      omega
    have hc : (texts y.comments).Perm
        (texts y.ann.leading ++ commentTexts (innerTrivia x.tokens) ++ texts y.ann.trailing) := by
      rw [h2, h3]; exact h4
    unfold Items.gaps
    cases hh : x.isHole with
    | true =>
      have hb : x.beyond false s = ([], []) := by rw [Arg.beyond, if_pos hh]
      have hrec := seated_shared r xs ys (some x.isHole) s.trailing [] [] [] (.refl _) hw.2 hw.1 (by rw [hb] at h5; exact h5)
      rw [if_pos rfl]
      refine ⟨⟨h1, ?_, hc⟩, ?_⟩
      · rw [Arg.triviaBefore, hh] at key
        show ((b ++ (divide _ _ (_ ++ Arg.triviaBefore _ _)).1) ++ _).Perm _
        rw [Arg.triviaBefore, hh]
        exact key
      rw [h3, hb]
      exact hrec
    | false =>
      have hrec := seated_shared r xs ys (some x.isHole) s.trailing (x.beyond false s).1 (x.beyond false s).2
        (commentTexts (triviaAfter x.tokens ++ s.leading)) (beyond_perm x s hh) hw.2 hw.1 h5
      rw [if_neg (by decide)]
      refine ⟨⟨h1, ?_, hc⟩, ?_⟩
      · rw [Arg.triviaBefore, hh] at key
        show ((b ++ (divide _ _ (_ ++ Arg.triviaBefore _ _)).1) ++ _).Perm _
        rw [Arg.triviaBefore, hh]
        exact key
      rw [h3]
      exact hrec

/-- C78: the arguments and parameters of every list of the file keep their tokens and the comments inside of them; every
comment between two of them is attached to one of the two (those before the first to the first, those after the last to the
last). So no comment passes an argument, whether or not arguments are left out. -/
theorem C78_kept (x : Root) (hg : x.es.gram = true) (hc : commentsEnd x.es.tokens) :
    Both SharedList x.es.lists x.attach.es.lists :=
  (alike_root x hg hc).mono fun k k' h hne => by
    obtain ⟨h1, h2⟩ := h hne
    have e : ∀ ss : List Seat, aheadFirst [] ss = ss := by
      intro ss; cases ss <;> rfl
    have := seated_shared k.right k.items k'.items.args none k.left.trailing [] [] [] (.refl _) h2 (args_ne hne)
      (by rw [e]; exact h1)
    have e1 : (k.items.seats none k.left.trailing k.right).1 = [] := by
      cases k.items <;> rfl
    rw [e1] at this
    exact this

/-! ## Examples -/

namespace Ex

/-- ```
f( # 1
a # 2
, # 3
# 4
, # 5
# 6
b
# 7
, # 8
function(x # 9
) 1
# 10
)
``` -/
def argComments : Root :=
  ⟨{}, list [.call {} .call (id (tk .ident "f")) {} (beside .lParen "(" "# 1")
    (.cons (val (id ⟨.ident, [⟨.newline, [10]⟩], tx "a", [⟨.whitespace, [32]⟩, ⟨.comment, tx "# 2"⟩]⟩))
      ⟨.comma, [⟨.newline, [10]⟩], tx ",", [⟨.whitespace, [32]⟩, ⟨.comment, tx "# 3"⟩]⟩
    (.cons (.hole {})
      ⟨.comma, [⟨.newline, [10]⟩, ⟨.comment, tx "# 4"⟩, ⟨.newline, [10]⟩], tx ",",
        [⟨.whitespace, [32]⟩, ⟨.comment, tx "# 5"⟩]⟩
    (.cons (val (id (below "# 6" .ident "b")))
      ⟨.comma, [⟨.newline, [10]⟩, ⟨.comment, tx "# 7"⟩, ⟨.newline, [10]⟩], tx ",",
        [⟨.whitespace, [32]⟩, ⟨.comment, tx "# 8"⟩]⟩
    (.last (val (.func {} (after 1 .functionKw "function") {} (tk .lParen "(")
      (.last (val (id (beside .ident "x" "# 9")))) (after 1 .rParen ")")
      (.atom {} .rDoubleValue (tk .rDoubleLiteral "1"))))))))
    (below "# 10" .rParen ")")], tk .eof ""⟩

end Ex

/-- The comments of the example: none passes an argument, but `# 8` is before `# 7` now. -/
theorem C78_reordered : (argComments.attach.es.lists.map fun k => k.items.args.map fun x =>
    (texts x.ann.leading, texts x.ann.trailing)) =
    [[([tx "# 1"], [tx "# 2", tx "# 3", tx "# 4"]), ([], []), ([tx "# 5", tx "# 6"], [tx "# 8"]),
      ([tx "# 7"], [tx "# 10"])], [([], [tx "# 9"])]] := by
  decide +kernel

example : argComments.es.gram = true ∧ commentsEnd argComments.es.tokens := by
  refine ⟨by decide +kernel, ?_⟩
  simp [commentsEnd, argComments, Ex.list, Ex.id, Ex.val, Exprs.tokens, Expr.tokens, Items.tokens, Arg.tokens,
    commentTexts, below, beside, after, tk]

end Verif.Format
