import Verif.Props.Arguments
import Verif.Props.AirFormat

/-!
# C78: comments stay with their arguments, for texts that R accepts
-/

namespace Verif.Format
open Verif.Syntax

theorem pieces_comment (ps : List Piece) : ∀ s : RState, s = .comment ∨ commentTexts ps ≠ [] →
    ps.any (fun p => p.kind == .newline) = true ∨ endState s (ps.map pieceEl) = .comment := by
  induction ps with
  | nil =>
    rintro s (rfl | h)
    · exact .inr rfl
    · exact absurd rfl h
  | cons p ps ih =>
    intro s h
    rw [List.map_cons, endState, List.any_cons]
    cases hk : p.kind with
    | newline => exact .inl rfl
    | whitespace =>
      have e : pieceEl p = .blank p.text := by unfold pieceEl; rw [hk]
      have hc : commentTexts (p :: ps) = commentTexts ps := by simp [commentTexts, hk]
      rw [hc] at h
      rw [e]
      refine (ih _ ?_).imp (fun h => by rw [h, Bool.or_true]) id
      refine h.imp (fun h => ?_) id
      subst h
      rfl
    | comment =>
      have e : pieceEl p = .comment p.text := by unfold pieceEl; rw [hk]
      rw [e]
      exact (ih _ (.inl rfl)).imp (fun h => by rw [h, Bool.or_true]) id

/-- If every token is seen by R, comments end before the next token. -/
theorem commentsEnd_clean : (ts : List Token) → Clean ts → commentsEnd ts
  | [], _ => trivial
  | [_], _ => trivial
  | t :: u :: ts, ⟨h1, h2⟩ =>
    ⟨fun hc => ((pieces_comment _ .inside (.inr hc)).resolve_right h1), commentsEnd_clean (u :: ts) h2⟩

end Verif.Format

namespace Verif.Whole
open Verif.Syntax Verif.Parser Verif.Format

/-- Between the tokens of a text that R reads, comments end at line breaks. -/
theorem parsed_commentsEnd {text : List Byte} {root : TsNode} {p : Exprs} {x : Root} (ha : Agrees text root p)
    (hr : readText (lf text) = some p.bare) (hl : LineEnds text root) (hp : Parsed text root p x) :
    commentsEnd x.es.tokens := by
  obtain ⟨-, -, -, -, hf⟩ := parsed_program ha hr hl hp
  exact commentsEnd_clean _ (srcL_file (shapes_toks _ _ _) hf).1

/-- C78 for source texts: for every text that R reads, the formatter sees the program that R reads; the arguments and
parameters of every list keep their tokens and the comments inside of them, the comments around them go where
`C78_seats` says, and every comment between two of them is attached to one of the two. -/
theorem C78_text {text : List Byte} {root : TsNode} {p : Exprs} (ha : Agrees text root p)
    (hr : readText (lf text) = some p.bare) (hl : LineEnds text root) :
    ∃ x, seenRoot text root = some x ∧ x.es.bare = p.bare ∧ x.text = lf text ∧
      Both SeatedList x.es.lists x.attach.es.lists ∧ Both SharedList x.es.lists x.attach.es.lists := by
  obtain ⟨x, hx, hseen⟩ := parsed_seen ha hr hl
  obtain ⟨ht, hb, -, hg, -⟩ := parsed_program ha hr hl hx
  have hc := parsed_commentsEnd ha hr hl hx
  exact ⟨x, hseen, hb, ht, C78_seats x hg hc, C78_kept x hg hc⟩

/-! ## Example -/

/-- `f( x #c`, `)`. -/
def hashText : List Byte := [102, 40, 32, 120, 32, 35, 99, 10, 41, 10]

def hashTree : TsNode :=
  .mk .rRoot .none 0 10
    [.mk .rCall .none 0 9
      [.mk .rIdentifier .other 0 1 [],
       .mk .rCallArguments .arguments 1 9
         [.mk .lParen .none 1 2 [], .mk .rArgument .none 3 4 [.mk .rIdentifier .other 3 4 []],
          .mk .comment .none 5 7 [], .mk .rParen .none 8 9 []]]]

theorem hash_agrees : Agrees hashText hashTree shortProgram where
  shaped := by
    simp only [ShapedRoot, hashTree, ShapedList, Shaped, classify, true_and, and_true]
    refine ⟨?_, .lParen, .rParen, by decide, ⟨_, [_, _], _, rfl, rfl, rfl, ?_⟩, ?_⟩
    · simp [ArgumentShape, TsNode.kind, TsNode.field]
    · simp [TsNode.kind]
    · intro a x b y c e hx hy
      have := congrArg (List.countP fun n => n.kind = .rArgument) e
      simp [List.countP_cons, hx, hy] at this
      simp [TsNode.kind] at this
      omega
  stop := rfl
  tiled := by simp [hashTree, hashText, leaves, leavesList, classify, Tiled, between, isGapByte, LineEnd]
  written := by
    refine ⟨rfl, _, _, rfl, ⟨rfl, _, _, _, [.mk .rArgument .none 3 4 [.mk .rIdentifier .other 3 4 []],
      .mk .comment .none 5 7 []], _, rfl, ?_, nofun, rfl, rfl, ?_, rfl, ?_, ?_, ?_⟩, rfl⟩
    · intro c hc hk
      simp only [TsNode.children, List.mem_cons, List.not_mem_nil, or_false] at hc
      rcases hc with rfl | rfl <;> cases hk
    · exact ⟨rfl, .inl ⟨.inl rfl, by decide⟩⟩
    · exact ⟨rfl, .inl rfl, by decide⟩
    · exact ⟨rfl, _, _, rfl, rfl, rfl, rfl, .inl ⟨.inl rfl, by decide⟩⟩
    · exact ⟨rfl, .inl rfl, by decide⟩
  comments := by decide
  strings := by simp [Joined, hashTree, leaves, leavesList, classify]

example : readText (lf hashText) = some shortProgram.bare ∧ LineEnds hashText hashTree :=
  ⟨by rfl, (C57_unix (by decide)).1⟩

/-- The comment of the text trails the argument. -/
example : (seenRoot hashText hashTree).map (fun x => x.attach.es.lists.map fun k => k.items.args.map fun y =>
    (texts y.ann.leading, texts y.ann.trailing)) = some [[([], [[35, 99]])]] := by decide +kernel

end Verif.Whole
