import Verif.Lemmas.StatementsHeads
import Verif.Lemmas.StatementsPrint
import Verif.Lemmas.FormatBlock

/-!
# The blocks of a file with their comments
-/

namespace Verif.Format
open Verif.Syntax

variable {X : View} {D : List Deco}

/-- The block is found in the tree with comments, every comment at its statement. -/
def Found (X : View) (D : List Deco) (k : Block) (W : Expr → Prop) : Prop :=
  ∃ q a, Node X D q (Expr.braced a k.left k.stmts k.right).view ∧
    (k.stmts ≠ .nil → Cared k.pre k.post (stations true k.left.trailing k.right k.stmts)
      (k.stmts.annotate (D.map Deco.placed) q 1)) ∧
    W ((Expr.braced a k.left k.stmts k.right).annotate (D.map Deco.placed) q)

theorem Found.mono {k : Block} {W W' : Expr → Prop} (h : Found X D k W) (hw : ∀ e, W e → W' e) : Found X D k W' := by
  obtain ⟨q, a, h1, h2, h3⟩ := h
  exact ⟨q, a, h1, h2, hw _ h3⟩

theorem plain_child (hD : ∀ d ∈ D, ∃ s, d.Sound X s) {r : Ref} {z : View} {n : Nat} {e : Expr} (hn : Node X D r z)
    (hs : z.parts.slot n = some e.view) (h5 : z.kind = .rIfStatement → n ≠ 5) (hb : bodyPos z.kind ≠ some n) :
    Ent X D (r ++ [n]) e [] [] :=
  plain_ent hD hn.1 (hn.child hs) h5 hb

theorem selector_blocks {n : Expr} (h : n.selector = true) : n.blocks [] [] = [] := by
  cases n <;> first | rfl | cases h

theorem argName_blocks {n : Expr} (h : n.argName = true) : n.blocks [] [] = [] := by
  cases n <;> first | rfl | cases h

theorem parName_blocks {n : Expr} (h : n.parName = true) : n.blocks [] [] = [] := by
  cases n <;> first | rfl | cases h

mutual
theorem found (hD : ∀ d ∈ D, ∃ s, d.Sound X s) {k : Block} : (e : Expr) → (g : Bool) → (r : Ref) →
    (pre post : List (List Byte)) → e.gram g = true → Ent X D r e pre post → k ∈ e.blocks pre post →
    Found X D k (Within · (e.annotate (D.map Deco.placed) r))
  | .atom .., _, _, _, _, _, _, h => by simp [Expr.blocks] at h
  | .str .., _, _, _, _, _, _, h => by simp [Expr.blocks] at h
  | .paren a l e t, g, r, pre, post, hg, hn, h => by
    simp only [Expr.gram, Bool.and_eq_true] at hg
    exact (found hD e _ _ _ _ hg.1.2 (plain_child hD hn.node rfl nofun nofun) h).mono fun _ h => .inr h
  | .braced a l es t, g, r, pre, post, hg, hn, h => by
    simp only [Expr.gram, Bool.and_eq_true] at hg
    simp only [Expr.blocks, List.mem_cons] at h
    rcases h with rfl | h
    · obtain ⟨hz, D1, D2, hs, h1, -⟩ := hn
      refine ⟨r, a, ⟨hz, D1, D2, hs⟩, fun hne => ?_, .inl rfl⟩
      have ho : Opens (Expr.braced a l es t).view := by
        cases es with
        | nil => exact absurd rfl hne
        | cons e es => exact ⟨rfl, e.view, rfl⟩
      obtain ⟨h2, h3⟩ := h1 ho
      have := block_cared hD hne hz hs
      rw [h2, h3] at this
      exact this
    · split at h
      · cases h
      · rename_i hc
        refine (founds hD es t r (Expr.braced a l es t).view 1 hg.1.2 ?_ Parts.At.self.tok h).mono fun _ h =>
          .inr ⟨by rw [curlies_annotate]; simpa using hc, h⟩
        intro i e hi
        exact plain_child hD hn.node hi nofun nofun
  | .unary a p e, g, r, pre, post, hg, hn, h => by
    simp only [Expr.gram] at hg
    split at hg
    · simp only [Bool.and_eq_true] at hg
      exact (found hD e _ _ _ _ hg.1 (plain_child hD hn.node rfl nofun nofun) h).mono fun _ h => .inr h
    · cases hg
  | .binary a x p y, g, r, pre, post, hg, hn, h => by
    simp only [Expr.gram] at hg
    split at hg
    · simp only [Bool.and_eq_true] at hg
      simp only [Expr.blocks, List.mem_append] at h
      rcases h with h | h
      · exact (found hD x _ _ _ _ hg.1.1.1.1 (plain_child hD hn.node rfl nofun nofun) h).mono fun _ h => .inr (.inl h)
      · exact (found hD y _ _ _ _ hg.1.1.1.2 (plain_child hD hn.node rfl nofun nofun) h).mono fun _ h => .inr (.inr h)
    · cases hg
  | .sel a .extract x p y, g, r, pre, post, hg, hn, h => by
    simp only [Expr.gram, Bool.and_eq_true] at hg
    simp only [Expr.blocks, selector_blocks hg.2, List.append_nil] at h
    exact (found hD x _ _ _ _ hg.1.1.1 (plain_child hD hn.node rfl nofun nofun) h).mono fun _ h => .inr (.inl h)
  | .sel a .namespace x p y, g, r, pre, post, hg, hn, h => by
    simp only [Expr.gram, Bool.and_eq_true] at hg
    simp only [Expr.blocks, selector_blocks hg.2, selector_blocks hg.1.1, List.append_nil] at h
    cases h
  | .call a c f aa l items t, g, r, pre, post, hg, hn, h => by
    simp only [Expr.gram, Bool.and_eq_true] at hg
    simp only [Expr.blocks, List.mem_append] at h
    rcases h with h | h
    · exact (found hD f _ _ _ _ hg.1.1.1.1 (plain_child hD hn.node rfl (by cases c <;> nofun) (by cases c <;> nofun)) h).mono
        fun _ h => .inr (.inl h)
    · have hc : Node X D (r ++ [1]) (.node c.args (.tok l (items.view true t))) := hn.node.child rfl
      exact (found_items hD true items t _ _ 1 (.inl ⟨_, hg.1.2⟩) (fun i y hi => hc.child hi) Parts.At.self.tok h).mono
        fun _ h => .inr (.inr h)
  | .func a kw pa l items t e, g, r, pre, post, hg, hn, h => by
    simp only [Expr.gram, Bool.and_eq_true] at hg
    simp only [Expr.blocks, List.mem_append] at h
    rcases h with h | h
    · have hc : Node X D (r ++ [1]) (.node .rParameters (.tok l (items.view false t))) := hn.node.child rfl
      exact (found_items hD false items t _ _ 1 (.inr (.inl hg.1.1.1.2)) (fun i y hi => hc.child hi) Parts.At.self.tok h).mono
        fun _ h => .inr (.inl h)
    · exact (found hD e _ _ _ _ hg.1.2 (function_ent hD hn.node) h).mono fun _ h => .inr (.inr h)
  | .ite a kw l c t b, g, r, pre, post, hg, hn, h => by
    simp only [Expr.gram, Bool.and_eq_true, beq_iff_eq] at hg
    simp only [Expr.blocks, List.mem_append] at h
    rcases h with h | h
    · exact (found hD c _ _ _ _ hg.1.1.1.2 (plain_child (n := 2) hD hn.node rfl (by simp) nofun) h).mono fun _ h => .inr (.inl h)
    · exact (found hD b _ _ _ _ hg.1.2 (if_ent hD hn hg.1.1.2 hg.1.2) h).mono fun _ h => .inr (.inr h)
  | .itee a kw l c t b ea el e, g, r, pre, post, hg, hn, h => by
    simp only [Expr.gram, Bool.and_eq_true, beq_iff_eq] at hg
    simp only [Expr.blocks, List.mem_append] at h
    rcases h with (h | h) | h
    · exact (found hD c _ _ _ _ hg.1.1.1.1.1.1.1.2 (plain_child (n := 2) hD hn.node rfl (by simp) nofun) h).mono
        fun _ h => .inr (.inl h)
    · exact (found hD b _ _ _ _ hg.1.1.1.1.1.2 (then_ent hD hn hg.1.1.1.1.1.1.2 hg.1.1.1.1.1.2) h).mono
        fun _ h => .inr (.inr (.inl h))
    · have he := else_ent hn.node
      rw [List.append_assoc] at he
      exact (found hD e _ _ _ _ hg.1.2 he h).mono fun _ h => .inr (.inr (.inr h))
  | .for_ a kw l v i s t e, g, r, pre, post, hg, hn, h => by
    simp only [Expr.gram, Bool.and_eq_true, beq_iff_eq] at hg
    simp only [Expr.blocks, List.mem_append, parName_blocks hg.1.1.1.1.1.2] at h
    rcases h with (h | h) | h
    · cases h
    · exact (found hD s _ _ _ _ hg.1.1.1.2 (plain_child (n := 4) hD hn.node rfl nofun nofun) h).mono
        fun _ h => .inr (.inr (.inl h))
    · exact (found hD e _ _ _ _ hg.1.2 (for_ent hD hn.node hg.1.1.2 hg.1.2) h).mono fun _ h => .inr (.inr (.inr h))
  | .while_ a kw l c t e, g, r, pre, post, hg, hn, h => by
    simp only [Expr.gram, Bool.and_eq_true, beq_iff_eq] at hg
    simp only [Expr.blocks, List.mem_append] at h
    rcases h with h | h
    · exact (found hD c _ _ _ _ hg.1.1.1.2 (plain_child (n := 2) hD hn.node rfl nofun nofun) h).mono fun _ h => .inr (.inl h)
    · exact (found hD e _ _ _ _ hg.1.2 (while_ent hD hn.node hg.1.1.2 hg.1.2) h).mono fun _ h => .inr (.inr h)
  | .repeat_ a kw e, g, r, pre, post, hg, hn, h => by
    simp only [Expr.gram, Bool.and_eq_true, beq_iff_eq] at hg
    exact (found hD e _ _ _ _ hg.1.2 (repeat_ent hD hn.node) h).mono fun _ h => .inr h
theorem founds (hD : ∀ d ∈ D, ∃ s, d.Sound X s) {k : Block} : (es : Exprs) → (t : Token) → (r : Ref) → (z : View) →
    (i : Nat) → es.gram = true →
    (∀ (i : Nat) (e : Expr), z.parts.slot i = some e.view → Ent X D (r ++ [i]) e [] []) → (es.view t).At z i → k ∈ es.blocks →
    Found X D k (Withins · (es.annotate (D.map Deco.placed) r i))
  | .nil, _, _, _, _, _, _, _, h => by cases h
  | .cons e es, t, r, z, i, hg, hn, ha, h => by
    rw [Exprs.view] at ha
    simp only [Exprs.gram, Bool.and_eq_true] at hg
    simp only [Exprs.blocks, List.mem_append] at h
    rcases h with h | h
    · exact (found hD e _ _ _ _ hg.1 (hn i _ ha.sub.1) h).mono fun _ h => .inl h
    · exact (founds hD es t r z (i + 1) hg.2 hn ha.sub.2 h).mono fun _ h => .inr h
theorem found_items (hD : ∀ d ∈ D, ∃ s, d.Sound X s) {k : Block} (call : Bool) : (xs : Items) → (t : Token) → (r : Ref) →
    (z : View) → (i : Nat) →
    ((∃ b, xs.gramArgs b = true) ∨ xs.gramPars = true ∨ xs.gramPars1 = true) →
    (∀ i y, z.parts.slot i = some y → Node X D (r ++ [i]) y) → (xs.view call t).At z i → k ∈ xs.blocks →
    Found X D k (WithinItems · (xs.annotate (D.map Deco.placed) r i))
  | .nil, _, _, _, _, _, _, _, h => by cases h
  | .last x, t, r, z, i, hg, hn, ha, h => by
    rw [Items.view] at ha
    refine found_arg hD call x _ ?_ (hn i _ ha.sub.1) h
    rcases hg with ⟨b, hg⟩ | hg | hg
    · simp only [Items.gramArgs, Bool.and_eq_true] at hg
      exact .inl hg.1
    · exact .inr hg
    · exact .inr hg
  | .cons x s xs, t, r, z, i, hg, hn, ha, h => by
    rw [Items.view] at ha
    have hx : x.gramArg = true ∨ x.gramPar = true := by
      rcases hg with ⟨b, hg⟩ | hg | hg
      · simp only [Items.gramArgs, Bool.and_eq_true] at hg
        exact .inl hg.1.1
      · simp only [Items.gramPars, Bool.and_eq_true] at hg
        exact .inr hg.1.1
      · simp only [Items.gramPars1, Bool.and_eq_true] at hg
        exact .inr hg.1.1
    have hxs : (∃ b, xs.gramArgs b = true) ∨ xs.gramPars = true ∨ xs.gramPars1 = true := by
      rcases hg with ⟨b, hg⟩ | hg | hg
      · simp only [Items.gramArgs, Bool.and_eq_true] at hg
        exact .inl ⟨_, hg.2⟩
      · simp only [Items.gramPars, Bool.and_eq_true] at hg
        exact .inr (.inr hg.2)
      · simp only [Items.gramPars1, Bool.and_eq_true] at hg
        exact .inr (.inr hg.2)
    simp only [Items.blocks, List.mem_append] at h
    rcases h with h | h
    · exact (found_arg hD call x _ hx (hn i _ ha.sub.1) h).mono fun _ h => .inl h
    · exact (found_items hD call xs t r z (i + 2) hxs hn ha.sub.2.tok h).mono fun _ h => .inr h
theorem found_arg (hD : ∀ d ∈ D, ∃ s, d.Sound X s) {k : Block} (call : Bool) : (x : Arg) → (r : Ref) →
    (x.gramArg = true ∨ x.gramPar = true) → Node X D r (x.view call) → k ∈ x.blocks →
    Found X D k (WithinArg · (x.annotate (D.map Deco.placed) r))
  | .hole a, r, hg, hn, h => by cases h
  | .val a e, r, hg, hn, h => by
    rcases hg with hg | hg
    · exact found hD e _ _ _ _ hg (plain_child hD hn rfl (by cases call <;> nofun) (by cases call <;> nofun)) h
    · rw [Arg.blocks, parName_blocks hg] at h
      cases h
  | .name a na n t, r, hg, hn, h => by
    rcases hg with hg | hg
    · simp only [Arg.gramArg, Bool.and_eq_true] at hg
      rw [Arg.blocks, argName_blocks hg.1] at h
      cases h
    · cases hg
  | .named a na n t e, r, hg, hn, h => by
    rcases hg with hg | hg
    · simp only [Arg.gramArg, Bool.and_eq_true] at hg
      rw [Arg.blocks, argName_blocks hg.1.1, List.nil_append] at h
      exact (found hD e _ _ _ _ hg.2 (plain_child hD hn rfl (by cases call <;> nofun) (by cases call <;> nofun)) h).mono
        fun _ h => .inr h
    · cases hg
  | .pdef a n da t e, r, hg, hn, h => by
    rcases hg with hg | hg
    · cases hg
    · simp only [Arg.gramPar, Bool.and_eq_true] at hg
      rw [Arg.blocks, parName_blocks hg.1.1, List.nil_append] at h
      have hc : Node X D (r ++ [1]) (.node .rParameterDefault (.tok t (.sub e.view .nil))) := hn.child rfl
      have he : Ent X D (r ++ [1] ++ [1]) e [] [] := plain_child hD hc rfl nofun nofun
      rw [List.append_assoc] at he
      exact (found hD e _ _ _ _ hg.2 he h).mono fun _ h => .inr h
end

/-! ## Printed blocks -/

/-- A block as it is printed: its statements with their comments. -/
theorem block_said {o : Opts} {cx : Cx} {a : Ann} {l r : Token} {es : Exprs} {ns : Bool} {m : Mode}
    {i : Nat} {x : List El} {pre post : List (List Byte)} {ss : List Station} (hne : es ≠ .nil)
    (hc : curlyCurly cx.inArg es = none) (ha : a.ordinary o = true) (hp : es.Proper) (hv : VerbsL o es)
    (hcar : Cared pre post ss es)
    (h : Lays ns m i (fmt o cx (.braced a l es r)) x) (s : PState) :
    ∃ before cs outs after,
      (run s x).1 = before ++ [.tok (outTok l)] ++ cs ++ [.rnl] ++ outs.flatten ++ indentation i ++ [.tok (outTok r)] ++
        after ∧ printedToks before = [] ∧ printedToks cs = [] ∧ printedToks after = [] ∧ Recited o pre post ss outs := by
  have hsup : suppressed o cx (.braced a l es r) = false := by
    unfold suppressed
    simp [Expr.ann, ordinary_dir ha cx.dir (.inl rfl), inSetting]
  have hb : bracedDoc cx a l es (fmtExprs o cx false true es) r =
      tokDoc l ⊹ hardBlock (fmtExprs o cx false true es) ⊹ tokDoc r := by
    unfold bracedDoc
    cases es with
    | nil => exact absurd rfl hne
    | cons e es => simp only [hc]
  rw [fmt, wrapDoc, hsup, hb] at h
  have hch : (cx.chain && (Expr.braced a l es r).isChain) = false := by
    simp [Expr.isChain]
  rw [hch, if_neg (by decide), if_neg (by decide)] at h
  obtain ⟨x1, y1, rfl, h1, x2, y2, rfl, h2, x3, x4, rfl, (rfl : x3 = _), h4⟩ := h
  obtain ⟨x5, y5, rfl, (rfl : x5 = _), y6, y7, rfl, h6, (rfl : y7 = _)⟩ := h2
  obtain ⟨u1, u2, rfl, ⟨w1, w2, rfl, (rfl : w1 = _), hw⟩, (rfl : u2 = _)⟩ := h6
  have e1 : x1 ++ ([.tok (outTok l)] ++ ((layLine ns m (i + 1) .hard ++ w2 ++ layLine ns m i .hard) ++
      [.tok (outTok r)]) ++ ([] ++ x4)) =
      x1 ++ ([.tok (outTok l)] ++ ([.nl false (i + 1)] ++ ((w2 ++ [.nl false i]) ++
        ([.tok (outTok r)] ++ x4)))) := by
    simp [layLine]
  have e2 : (if (Expr.braced a l es r).isBraced = true then Doc.nil
      else danglingSoft (Expr.braced a l es r).ann.dangling) = .nil := rfl
  rw [e1]
  clear e1 e2
  generalize hz : w2 ++ [El.nl false i] = z
  rw [run_append, run_append, run_append, run_append, run_append]
  dsimp only
  generalize (run s x1).2 = s1
  have ht : ∀ (s : PState) (t : Tok), run s [.tok t] = (pendingEls s ++ [.tok t],
      { s with started := true, space := false, ind := 0, emptyLine := false }) := by
    intro s t; rw [run_single]; exact printText_eq ..
  rw [ht s1]
  dsimp only
  obtain ⟨c, hc1, hc2, hF⟩ := nl_out
    { s1 with started := true, space := false, ind := 0, emptyLine := false } rfl (i + 1)
  rw [hc1]
  generalize hs2 : (run { s1 with started := true, space := false, ind := 0, emptyLine := false }
    [.nl false (i + 1)]).2 = s2 at hF
  obtain ⟨body, -, -, hb3⟩ := listing o cx false es ns m (i + 1) i s2 w2 hne (by simp) hF hw
  obtain ⟨outs, hb1, hb2⟩ := listing_comments o cx false pre post es ss ns m (i + 1) i s2 w2 hne (by simp) hF hp hv hcar hw
  rw [hz] at hb1 hb3
  rw [hb1]
  generalize (run s2 z).2 = s3 at hb3
  rw [ht s3]
  dsimp only
  rw [hb3.pending]
  refine ⟨(run s x1).1 ++ pendingEls s1, c, outs,
    (run { started := true, sfx := s3.sfx } x4).1, ?_, ?_, hc2, ?_, hb2⟩
  · simp only [List.append_assoc]
  · rw [printedToks_append, printedToks_run, leading_noTok _ _ _ _ _ h1]
    exact pending_noTok s1
  · rw [printedToks_run]
    exact trailing_noTok _ _ _ _ _ _ h4

/-- The blocks of a file. -/
theorem found_root (x : Root) (hg : x.es.gram = true) {k : Block} (hk : k ∈ x.es.blocks) :
    Found x.view (x.view.decos [] true) k (Withins · x.attach.es) := by
  have hD : ∀ d ∈ x.view.decos [] true, ∃ s, d.Sound x.view s := view_sound fun _ => rfl
  refine founds hD x.es x.eof [] x.view 0 hg ?_ Parts.At.self hk
  intro i e hi
  exact plain_ent hD (r := []) (z := x.view) rfl ⟨slot_nodeAt hi, Split.root hi⟩ nofun nofun

end Verif.Format
