import Verif.Lemmas.FormatArgs

/-!
# Operands of a chain on lines of their own
-/

namespace Verif.Format
open Verif.Syntax

/-- `a` is `last` without what follows its last text. -/
def Closes (a last : List El) : Prop :=
  (∃ b r, a = b :: r ∧ b.isText = true) ∧ (∃ r t, a = r ++ [t] ∧ t.isText = true) ∧
    printedToks a = printedToks last

theorem Rest.closes {last : List El} {s : PState} (h : Rest last s) (hb : Begins last) :
    ∃ a z, last = a ++ z ∧ (∀ e ∈ z, e.isText = false) ∧ Closes a last := by
  obtain ⟨b, r, hr, hb⟩ := hb
  rcases h with ⟨o, t, ho, ht, -⟩ | ⟨o, t, ho, ht, -⟩
  · refine ⟨last, [], by simp, by simp, ⟨b, r, hr, hb⟩, ⟨o, t, ho, ht⟩, rfl⟩
  · have e : last = (o ++ [t]) ++ [.rnl] := by rw [ho]; simp
    refine ⟨o ++ [t], [.rnl], e, by simp [El.isText], ?_, ⟨o, t, rfl, ht⟩, ?_⟩
    · rw [hr] at e
      cases o with
      | nil => exact ⟨t, [], rfl, ht⟩
      | cons c o =>
        obtain rfl : b = c := (List.cons.inj e).1
        exact ⟨b, o ++ [t], rfl, hb⟩
    · rw [e, printedToks_append (o ++ [t])]
      simp [printedToks]

/-- A line break on a line with text. -/
theorem nls_out (s : PState) (hs : s.started = true) (e : Bool) (i : Nat) :
    ∃ c, (run s [.nl e i]).1 = c ++ List.replicate (1 + e.toNat) .rnl ∧ printedToks c = [] ∧
      Fresh i (run s [.nl e i]).2 := by
  rw [run_single]
  have h : (flush s).2.started = true := suffixes_started _ _ hs
  refine ⟨(flush s).1, ?_, flush_noTok s, rfl, rfl, rfl, flush_sfx s⟩
  cases e <;> simp [printEl, printNl, h] <;> rfl

theorem pending_noText (s : PState) : ∀ e ∈ pendingEls s, e.isText = false := by
  intro e he
  unfold pendingEls at he
  rcases List.mem_append.mp he with he | he
  · split at he
    · cases he
    · rw [List.mem_singleton.mp he]; rfl
  · split at he
    · rw [List.mem_singleton.mp he]; rfl
    · cases he

theorem fmt_statement {o : Opts} {cx : Cx} {p : Place} {e : Expr} {ns : Bool} {m : Mode} {i : Nat}
    {y a : List El} (hp : At cx p) (hy : Lays ns m i (fmt o cx e) y) {last : List El}
    (hl : printedToks last = printedToks y) (ha : Closes a last) : Statement o p e a := by
  obtain ⟨h1, h2, h3⟩ := ha
  obtain ⟨e', hb, ht⟩ := fmt_becomes hp hy
  exact ⟨h1, h2, e', hb, by rw [h3, hl, ht]⟩

/-- What is printed for the expression after pending blanks. -/
theorem fmt_run {o : Opts} {cx : Cx} {e : Expr} {ns : Bool} {m : Mode} {i : Nat} {y : List El}
    (hy : Lays ns m i (fmt o cx e) y) (s : PState) :
    ∃ last, (run s y).1 = pendingEls s ++ last ∧ Begins last ∧ Rest last (run s y).2 ∧
      printedToks last = printedToks y := by
  obtain ⟨a, r, h1, ha, hR⟩ :=
    begins_ends_run (fmt_begins o e _ _ _ _ _ hy) (fmt_ends o e _ _ _ _ _ hy) s
  refine ⟨a :: r, h1, ⟨a, r, rfl, ha⟩, hR, ?_⟩
  have := printedToks_run s y
  rw [h1, printedToks_append, (pending_noTok s : printedToks _ = [])] at this
  exact this

/-- Operands of the chain `x op y`. -/
def chainDoc (o : Opts) (cx : Cx) (x : Expr) (op : Token) (y : Expr) : Doc :=
  fmt o { opCx cx op.kind with chain := true, aligned := cx.aligned } x ⊹
    (if cx.aligned then chainPiece op y (fmt o (opCx cx op.kind) y)
     else .indent (chainPiece op y (fmt o (opCx cx op.kind) y)))

/-- The head of a chain and the operands after it. -/
def HeadTail (o : Opts) (i : Nat) (e : Expr) (out : List El) : Prop :=
  ∃ a rest, out = a ++ rest ∧ Statement o {} e.chainHead a ∧ Operands o i e.chainTail rest

theorem operands_snoc {o : Opts} {i : Nat} {op : Token} {y : Expr} {w cs a : List El}
    (hw : ∀ e ∈ w, e.isText = false) (hc : printedToks cs = []) (ha : Statement o {} y a) :
    ∀ (ys : List (Token × Expr)) (rest : List El), Operands o i ys rest →
    Operands o i (ys ++ [(op, y)]) (rest ++ (w ++ [.tok (outTok op)] ++ cs ++
      List.replicate (1 + min (blankLines y.tokens) 1) .rnl ++ indentation i ++ a))
  | [], rest, h => by
    rw [Operands] at h
    subst h
    exact ⟨w, cs, a, [], by simp, hw, hc, ha, rfl⟩
  | (op', y') :: ys, rest, h => by
    obtain ⟨w', cs', a', rest', rfl, h1, h2, h3, h4⟩ := h
    exact ⟨w', cs', a', _, by simp [List.append_assoc], h1, h2, h3,
      operands_snoc hw hc ha ys rest' h4⟩

theorem chains_eq (k : Kind) : isChainOp k = chains k := by cases k <;> rfl

theorem at_opCx {cx : Cx} {k : Kind} (h : chains k = true) (c a : Bool) :
    At { opCx cx k with chain := c, aligned := a } {} := by
  refine ⟨rfl, ?_, .inl ⟨rfl, rfl⟩, (fun h => by cases h)⟩
  cases k <;> first | (exact Bool.noConfusion h) | rfl

/-- The piece with an operator and its right operand after the output `last`. -/
theorem piece_run {o : Opts} {cx : Cx} {op : Token} {y : Expr} (hk : chains op.kind = true) {i : Nat}
    {x : List El} (hx : Lays false .expanded i (chainPiece op y (fmt o (opCx cx op.kind) y)) x)
    {last : List El} {s : PState} (hR : Rest last s) (hB : Begins last) :
    ∃ a w cs l2, last ++ (run s x).1 = a ++ (w ++ [.tok (outTok op)] ++ cs ++
        List.replicate (1 + min (blankLines y.tokens) 1) .rnl ++ indentation i ++ l2) ∧
      Closes a last ∧ (∀ e ∈ w, e.isText = false) ∧ printedToks cs = [] ∧ Begins l2 ∧
      Rest l2 (run s x).2 ∧ (∀ b, Closes b l2 → Statement o {} y b) := by
  obtain ⟨x1, x2, rfl, (rfl : x1 = _), x3, x4, rfl, (rfl : x3 = _), x5, x6, rfl, (rfl : x5 = _), hy⟩ := hx
  have hlay : layLine false .expanded i (if linesBefore y.tokens > 1 then .empty else .softOrSpace) =
      [.nl (decide (1 < linesBefore y.tokens)) i] := by
    split
    · next h => rw [decide_eq_true h]; rfl
    · next h => rw [decide_eq_false h]; rfl
  have hcount : 1 + (decide (1 < linesBefore y.tokens)).toNat = 1 + min (blankLines y.tokens) 1 := by
    rw [← blank_lines]
    by_cases h : 1 < linesBefore y.tokens
    · rw [decide_eq_true h]; simp; omega
    · rw [decide_eq_false h]; simp; omega
  rw [hlay, run_append, run_append, run_append, run_single, run_tok]
  dsimp only [printEl]
  obtain ⟨c, hc1, hc2, hF⟩ := nls_out
    { printSpace s with started := true, space := false, ind := 0, emptyLine := false } rfl
    (decide (1 < linesBefore y.tokens)) i
  rw [hc1]
  generalize (run { printSpace s with started := true, space := false, ind := 0, emptyLine := false }
    [.nl (decide (1 < linesBefore y.tokens)) i]).2 = s3 at hF
  obtain ⟨l2, k1, k2, k3, k4⟩ := fmt_run hy s3
  obtain ⟨a, z, e1, hz, hcl⟩ := hR.closes hB
  refine ⟨a, z ++ pendingEls (printSpace s), c, l2, ?_, hcl, ?_, hc2, k2, k3, ?_⟩
  · rw [k1, hF.pending, e1, hcount]
    simp
  · intro e he
    rcases List.mem_append.mp he with he | he
    · exact hz e he
    · exact pending_noText _ e he
  · intro b hb
    exact fmt_statement (at_opCx hk false false) hy k4 hb

/-- The printed chain: `acc ++ last` after the pending blanks. -/
def ChainRun (o : Opts) (k i : Nat) (e : Expr) (d : Doc) : Prop :=
  ∀ s x, Lays false .expanded i d x →
    ∃ acc last, (run s x).1 = pendingEls s ++ acc ++ last ∧ Rest last (run s x).2 ∧ Begins last ∧
      ∀ a, Closes a last → HeadTail o k e (acc ++ a)

theorem trailing_run (cs : List Comment) : ∀ (n : Nat) (ns : Bool) (m : Mode) (i : Nat) (x : List El),
    Lays ns m i (trailingDoc n cs) x → ∀ s, (run s x).1 = [] ∧
      ∀ out, Rest out s → Rest out (run s x).2 := by
  induction cs with
  | nil => intro n ns m i x h s; cases h; exact ⟨rfl, fun _ h => h⟩
  | cons c cs ih =>
    intro n ns m i x h s
    obtain ⟨u, v, rfl, (rfl : u = _), hz⟩ := h
    rw [run_append, run_single]
    obtain ⟨h1, h2⟩ := ih _ _ _ _ _ hz (printEl s (.suffix
      (if n + c.before = 0 then none else some (decide (1 < c.before))) i c.text)).2
    exact ⟨by dsimp only; rw [h1]; rfl, fun out ho => h2 out (ho.congr rfl rfl)⟩

theorem chainDoc_run {o : Opts} {x : Expr} {cx : Cx} {b : Ann} {op : Token} {y : Expr}
    (hk : chains op.kind = true) {i : Nat}
    (ih : ChainRun o (if cx.aligned then i else i + 1) i x
      (fmt o { opCx cx op.kind with chain := true, aligned := cx.aligned } x)) :
    ChainRun o (if cx.aligned then i else i + 1) i (.binary b x op y) (chainDoc o cx x op y) := by
  rintro s z ⟨u, v, rfl, hu, hv⟩
  obtain ⟨acc, last, g1, g2, g3, g4⟩ := ih s u hu
  have hv' : Lays false .expanded (if cx.aligned then i else i + 1)
      (chainPiece op y (fmt o (opCx cx op.kind) y)) v := by
    cases h : cx.aligned <;> rw [h] at hv <;> exact hv
  obtain ⟨a, w, cs, l2, k1, k2, k3, k4, k5, k6, k7⟩ := piece_run hk hv' g2 g3
  rw [run_append]
  refine ⟨acc ++ a ++ (w ++ [.tok (outTok op)] ++ cs ++
        List.replicate (1 + min (blankLines y.tokens) 1) .rnl ++
        indentation (if cx.aligned then i else i + 1)), l2, ?_, k6, k5, ?_⟩
  · dsimp only
    rw [g1, List.append_assoc _ last, k1]
    simp
  · intro c hc
    obtain ⟨a0, rest, e1, h1, h2⟩ := g4 a k2
    refine ⟨a0, rest ++ (w ++ [.tok (outTok op)] ++ cs ++
      List.replicate (1 + min (blankLines y.tokens) 1) .rnl ++
      indentation (if cx.aligned then i else i + 1) ++ c), ?_, ?_, ?_⟩
    · rw [e1]; simp
    · rw [Expr.chainHead, if_pos hk]; exact h1
    · rw [Expr.chainTail, if_pos hk]
      exact operands_snoc k3 k4 (k7 c hc) _ _ h2

theorem plain_run {o : Opts} {e : Expr} {cx : Cx} (k i : Nat) (hat : At cx {})
    (h1 : e.chainHead = e) (h2 : e.chainTail = []) : ChainRun o k i e (fmt o cx e) := by
  intro s z hz
  obtain ⟨last, k1, k2, k3, k4⟩ := fmt_run hz s
  refine ⟨[], last, by simpa using k1, k3, k2, fun a ha => ⟨a, [], by simp, ?_, ?_⟩⟩
  · rw [h1]; exact fmt_statement hat hz k4 ha
  · rw [h2, Operands]

/-- The document of a chain. -/
theorem chainDoc_eq {o : Opts} {cx : Cx} {b : Ann} {x y : Expr} {op : Token}
    (hk : chains op.kind = true) : fmt o cx (.binary b x op y) = wrapDoc o cx (.binary b x op y)
      (if cx.chain then chainDoc o cx x op y
       else .group (o.persistent && leadingNewline (firstRight x y).tokens) (chainDoc o cx x op y)) := by
  rw [fmt]
  have h1 : isSticky op.kind = false := by cases h : op.kind <;> simp_all [chains, isSticky]
  have h2 : isAssignOp op.kind = false := by cases h : op.kind <;> simp_all [chains, isAssignOp]
  simp only [chains_eq, hk, h1, h2]
  rfl

theorem chain_run (o : Opts) : ∀ (e : Expr) (cx : Cx) (i : Nat), cx.chain = true → At cx {} →
    ChainRun o (if cx.aligned then i else i + 1) i e (fmt o cx e)
  | .binary b x op y, cx, i, hc, hat => by
    by_cases hk : chains op.kind = true
    · have hd : fmt o cx (.binary b x op y) = chainDoc o cx x op y ⊹ trailingDoc 0 b.trailing := by
        rw [chainDoc_eq hk, wrapDoc, hc]
        simp only [Expr.isChain, chains_eq, hk, Expr.ann]
        rfl
      rw [hd]
      rintro s z ⟨u, v, rfl, hu, hv⟩
      obtain ⟨acc, last, g1, g2, g3, g4⟩ := chainDoc_run hk (b := b) (y := y)
        (chain_run o x { opCx cx op.kind with chain := true, aligned := cx.aligned } i rfl
          (at_opCx hk _ _)) s u hu
      rw [run_append]
      have hv0 := trailing_run b.trailing _ _ _ _ _ hv (run s u).2
      refine ⟨acc, last, by dsimp only; rw [hv0.1, g1, List.append_nil], hv0.2 _ g2, g3, g4⟩
    · exact plain_run _ _ hat (by rw [Expr.chainHead]; simp [hk]) (by rw [Expr.chainTail]; simp [hk])
  | .atom .., cx, i, hc, hat => plain_run _ _ hat rfl rfl
  | .str .., cx, i, hc, hat => plain_run _ _ hat rfl rfl
  | .paren .., cx, i, hc, hat => plain_run _ _ hat rfl rfl
  | .braced .., cx, i, hc, hat => plain_run _ _ hat rfl rfl
  | .unary .., cx, i, hc, hat => plain_run _ _ hat rfl rfl
  | .sel .., cx, i, hc, hat => plain_run _ _ hat rfl rfl
  | .call .., cx, i, hc, hat => plain_run _ _ hat rfl rfl
  | .func .., cx, i, hc, hat => plain_run _ _ hat rfl rfl
  | .ite .., cx, i, hc, hat => plain_run _ _ hat rfl rfl
  | .itee .., cx, i, hc, hat => plain_run _ _ hat rfl rfl
  | .for_ .., cx, i, hc, hat => plain_run _ _ hat rfl rfl
  | .while_ .., cx, i, hc, hat => plain_run _ _ hat rfl rfl
  | .repeat_ .., cx, i, hc, hat => plain_run _ _ hat rfl rfl

/-- The whole chain, in an expanded group. -/
theorem chainGroup_run {o : Opts} {cx : Cx} {b : Ann} {x y : Expr} {op : Token}
    (hk : chains op.kind = true) {m : Mode} {i : Nat} {z : List El}
    (hz : Lays false m i (.group true (chainDoc o cx x op y)) z) (s : PState) :
    ∃ k out post, (run s z).1 = pendingEls s ++ out ++ post ∧ (∀ e ∈ post, e.isText = false) ∧
      HeadTail o k (.binary b x op y) out := by
  obtain ⟨m', hm, hz⟩ := hz
  obtain rfl := hm rfl rfl
  obtain ⟨acc, last, g1, g2, g3, g4⟩ := chainDoc_run hk (b := b) (y := y)
    (chain_run o x { opCx cx op.kind with chain := true, aligned := cx.aligned } i rfl
      (at_opCx hk _ _)) s z hz
  obtain ⟨a, w, e1, h1, h2⟩ := g2.closes g3
  refine ⟨_, acc ++ a, w, ?_, h1, g4 a h2⟩
  rw [g1, e1]
  simp

theorem firstRight_tail : ∀ (x y : Expr) (op : Token) (b : Ann), chains op.kind = true →
    ∃ op' ys, (Expr.binary b x op y).chainTail = (op', firstRight x y) :: ys
  | .binary c u p v, y, op, b, hk => by
    rw [Expr.chainTail, if_pos hk]
    by_cases h : chains p.kind = true
    · obtain ⟨op', ys, he⟩ := firstRight_tail u v p c h
      rw [he, firstRight, chains_eq, if_pos h]
      exact ⟨op', ys ++ [(op, y)], rfl⟩
    · rw [Expr.chainTail, firstRight, chains_eq, if_neg h, if_neg h]
      exact ⟨op, [], rfl⟩
  | .atom .., y, op, b, hk => ⟨op, [], by rw [Expr.chainTail, if_pos hk]; rfl⟩
  | .str .., y, op, b, hk => ⟨op, [], by rw [Expr.chainTail, if_pos hk]; rfl⟩
  | .paren .., y, op, b, hk => ⟨op, [], by rw [Expr.chainTail, if_pos hk]; rfl⟩
  | .braced .., y, op, b, hk => ⟨op, [], by rw [Expr.chainTail, if_pos hk]; rfl⟩
  | .unary .., y, op, b, hk => ⟨op, [], by rw [Expr.chainTail, if_pos hk]; rfl⟩
  | .sel .., y, op, b, hk => ⟨op, [], by rw [Expr.chainTail, if_pos hk]; rfl⟩
  | .call .., y, op, b, hk => ⟨op, [], by rw [Expr.chainTail, if_pos hk]; rfl⟩
  | .func .., y, op, b, hk => ⟨op, [], by rw [Expr.chainTail, if_pos hk]; rfl⟩
  | .ite .., y, op, b, hk => ⟨op, [], by rw [Expr.chainTail, if_pos hk]; rfl⟩
  | .itee .., y, op, b, hk => ⟨op, [], by rw [Expr.chainTail, if_pos hk]; rfl⟩
  | .for_ .., y, op, b, hk => ⟨op, [], by rw [Expr.chainTail, if_pos hk]; rfl⟩
  | .while_ .., y, op, b, hk => ⟨op, [], by rw [Expr.chainTail, if_pos hk]; rfl⟩
  | .repeat_ .., y, op, b, hk => ⟨op, [], by rw [Expr.chainTail, if_pos hk]; rfl⟩

end Verif.Format
