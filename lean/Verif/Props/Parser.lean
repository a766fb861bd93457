import Verif.Lemmas.ParserCrlf
import Verif.Model.Kinds

/-!
# C32-C35: the parser bridge
-/

namespace Verif.Parser

open Syntax

/-! ## The whole parse -/

theorem classify_literal {k lit : Kind} (h : classify k = .value lit ∨ classify k = .atom lit) :
    lit ≠ .eof := by
  revert h
  cases k <;> simp [classify] <;> intro h <;> subst h <;> simp

theorem classify_token {k : Kind} (h : classify k = .token ∨ classify k = .content) : k ≠ .eof := by
  rintro rfl
  simp [classify] at h

theorem leaf_ne_eof (n : TsNode) : ∀ l ∈ leaves n, l.isComment = false → l.kind ≠ .eof := by
  have hlist : ∀ cs : List TsNode, (∀ c ∈ cs, ∀ l ∈ leaves c, l.isComment = false → l.kind ≠ .eof) →
      ∀ l ∈ leavesList cs, l.isComment = false → l.kind ≠ .eof := by
    intro cs
    induction cs with
    | nil => simp [leavesList]
    | cons c cs ih =>
      intro h l hl
      rw [leavesList, List.mem_append] at hl
      rcases hl with hl | hl
      · exact h c (by simp) l hl
      · exact ih (fun c hc => h c (by simp [hc])) l hl
  induction n using TsNode.induct with
  | h k f s e cs ih =>
    intro l hl hc
    rw [leaves] at hl
    cases hk : classify k <;> simp only [hk, List.mem_singleton] at hl
    case value lit => subst hl; exact classify_literal (.inl hk)
    case atom lit => subst hl; exact classify_literal (.inr hk)
    case content => subst hl; exact classify_token (.inr hk)
    case token => subst hl; exact classify_token (.inl hk)
    case comment => subst hl; cases hc
    all_goals exact hlist cs ih l hl hc

/-- The tree that the root of a tree-sitter tree becomes, without the end of the file. -/
def rootTree (root : TsNode) : PTree :=
  .node .rRoot [.node .rExpressionList (Item.all (items none root.children))]

/-- The walk over a whole tree. -/
theorem walk_root (text : List Byte) (root : TsNode) (hs : ShapedRoot root) :
    walkNode text root Walk.new =
      ((leafFold text (leaves root) ⟨[], 0, false⟩).bind (rootStep text root.stop)).map fun p =>
        ⟨flat (rootTree root), p⟩ := by
  obtain ⟨k, f, s, e, cs⟩ := root
  obtain ⟨rfl, hl⟩ := hs
  rw [walkNode]
  have hl' : leaves (.mk .rRoot f s e cs) = leavesList cs := by simp [leaves, classify]
  simp only [classify]
  rw [walkKids_plain text cs _ fun c hc => (walkNode_good text c).1 (shapedList_none hl c hc), hl']
  simp only [after, Walk.start, Walk.new, TsNode.stop]
  cases leafFold text (leavesList cs) ⟨[], 0, false⟩ with
  | none => rfl
  | some p =>
    simp only [Option.map_some, Option.bind_some, Option.bind_eq_bind, Walk.finish]
    cases rootStep text e p with
    | none => rfl
    | some q => simp [rootTree, flat_node, flats_single, TsNode.children]

/-- Tokens of the tree of the root. -/
theorem ptoks_root (root : TsNode) (hs : ShapedRoot root) :
    ptoksList [.node .rExpressionList (Item.all (items none root.children))] =
      leafToks (leaves root) := by
  obtain ⟨k, f, s, e, cs⟩ := root
  obtain ⟨rfl, hl⟩ := hs
  have hl' : leaves (.mk .rRoot f s e cs) = leavesList cs := by simp [leaves, classify]
  rw [hl', ptoksList, ptoksList, List.append_nil, ptoks, TsNode.children,
    ptoksList_items_none cs fun c hc => (ptoks_conv c).1 (shapedList_none hl c hc)]

/-- What parsing a text without errors gives. -/
theorem parse_ok (text : List Byte) (root : TsNode) (hs : ShapedRoot root)
    (he : root.stop = text.length) (ht : Tiled text text.length 0 false (leaves root)) :
    ∃ trees eof hd tl, parse text root false =
        some (.node .rRoot [.node .rExpressionList trees, .token eof], false) ∧
      FitsList (Item.all (items none root.children)) trees ∧
      Tree.tokensList trees ++ [eof] = hd :: tl ∧
      ((hd :: tl).map fun t => (t.kind, t.text)) = leafTexts text (leaves root) ++ [(.eof, [])] ∧
      ((hd :: tl).map Token.full).flatten = text ∧
      ((hd :: tl).map tokenComments).flatten =
        (leafComments (leaves root)).map (fun c => between text c.1 c.2) ∧
      TriviaOk true hd ∧ (∀ t ∈ tl, TriviaOk false t) ∧
      CommentsEndAll (hd :: tl) ∧ (Joined (leaves root) → Unbroken (hd :: tl)) ∧ eof.trailing = [] ∧
      (Lined text → (∀ l ∈ leaves root, Apart text l.start ∧ Apart text l.stop) →
        ∀ t ∈ hd :: tl, ∀ q ∈ t.leading ++ t.trailing, Crisp q.text) := by
  obtain ⟨T', L', m', q, R, hd, tl, p, e1, e2, e3, e4, ⟨ee, e5⟩, e6, e7, e8, e9, e10, e11⟩ :=
    tiles_ok text (leaves root) false false 0 0 0 [] [] [] [] ht (gap_start text false 0) (by simp)
  have hT : T' = [] := e3.first rfl
  subst hT
  have hm : 0 = m' := e3.trailing
  subst hm
  simp only [List.nil_append] at e1 e2 e5 e7 e8
  simp only [List.map_nil, piecesText, List.flatten_nil, List.nil_append, pieceComments,
    List.filter_nil] at e7 e8
  have htoks := ptoks_root root hs
  have hne : ∀ x ∈ ptoksList [.node .rExpressionList (Item.all (items none root.children))],
      x.1 ≠ .eof := by
    rw [htoks]
    intro x hx
    simp only [leafToks, List.mem_map, List.mem_filter] at hx
    obtain ⟨l, ⟨hl, hc⟩, rfl⟩ := hx
    exact leaf_ne_eof root l hl (by simpa using hc)
  have hcrisp : Lined text → (∀ l ∈ leaves root, Apart text l.start ∧ Apart text l.stop) →
      ∀ t ∈ hd :: tl, ∀ q ∈ t.leading ++ t.trailing, Crisp q.text := by
    intro hl ha t ht' q hq
    obtain ⟨u, hu, rfl⟩ := fill_pieces _ _ _ e5 t ht' q hq
    exact crisp_fold hl _ _ _ _ _ _ ht ha (by simp) e1 u (by rw [e2]; exact hu)
  rw [← htoks] at e5
  obtain ⟨trees, eof, f1, f2, f3, f4⟩ := buildTree_root text .rRoot _ p.trivia hne (by rw [e2]; exact e5)
  obtain ⟨d, rfl, g2⟩ := fitsList_single f2
  cases d with
  | token t => simp [Fits] at g2
  | node k trees =>
    simp only [Fits] at g2
    obtain ⟨rfl, g2⟩ := g2
    refine ⟨trees, eof, hd, tl, ?_, g2, ?_, e6, ?_, e8, e9, e10, (e11.comments (by simp)).2,
      e11.unbroken, e11.last eof ?_, hcrisp⟩
    · simp only [parse, Bool.false_eq_true, if_false]
      rw [walk_root text root hs, he, e1]
      simp only [Option.map_some, Option.bind_eq_bind, Option.bind_some, rootTree, f1]
      rfl
    · rw [← f4]; simp [Tree.tokensList, Tree.tokens]
    · rw [e7, between_all]
    · rw [← f4, List.getLast?_append]; rfl

/-! ## C32 -/

/-- **C32**: for every text and every tree of tree-sitter over it, the tokens of the syntax tree
with their trivia give back the text byte for byte; apart from the end of the file the tokens are
those of tree-sitter, in order and with their text. -/
theorem C32_lossless (text : List Byte) (root : TsNode) (hs : ShapedRoot root)
    (he : root.stop = text.length) (ht : Tiled text text.length 0 false (leaves root)) :
    ∃ t, parse text root false = some (t, false) ∧ t.full = text ∧
      (t.tokens.map fun t => (t.kind, t.text)) =
        ((leaves root).filter fun l => !l.isComment).map (fun l => (l.kind, between text l.start l.stop))
          ++ [(.eof, [])] := by
  obtain ⟨trees, eof, hd, tl, h1, _, h2, h3, h4, _⟩ := parse_ok text root hs he ht
  refine ⟨_, h1, ?_, ?_⟩
  · simp only [Tree.full, Tree.tokens, Tree.tokensList, List.append_nil, h2, h4]
  · simp only [Tree.tokens, Tree.tokensList, List.append_nil, h2, h3, leafTexts]

/-- The hypothesis that gaps are blank is needed, and not met by all files: for a file that starts
with a byte order mark, which tree-sitter skips, the parser panics. -/
theorem C32_bom_panics :
    parse [0xEF, 0xBB, 0xBF, 120] (.mk .rRoot .none 3 4 [.mk .rIdentifier .none 3 4 []]) false =
      none := by decide +kernel

/-! ## C33 -/

/-- **C33**: every comment of the source appears exactly once among the trivia, in order; newlines
are never trailing, a comment attached to the preceding token is on the line of that token, and a
comment attached to the following token is on a line of its own. -/
theorem C33_trivia (text : List Byte) (root : TsNode) (hs : ShapedRoot root)
    (he : root.stop = text.length) (ht : Tiled text text.length 0 false (leaves root)) :
    ∃ t hd tl, parse text root false = some (t, false) ∧ t.tokens = hd :: tl ∧
      (t.tokens.map tokenComments).flatten =
        ((leaves root).filter fun l => l.isComment).map (fun l => between text l.start l.stop) ∧
      TriviaOk true hd ∧ ∀ t ∈ tl, TriviaOk false t := by
  obtain ⟨trees, eof, hd, tl, h1, _, h2, _, _, h5, h6, h7, _⟩ := parse_ok text root hs he ht
  refine ⟨_, hd, tl, h1, ?_, ?_, h6, h7⟩
  · simp only [Tree.tokens, Tree.tokensList, List.append_nil, h2]
  · simp only [Tree.tokens, Tree.tokensList, List.append_nil, h2, h5, leafComments, List.map_map]
    rfl

/-! ## C34 -/

/-- Number of commas. -/
def commas (cs : List TsNode) : Nat := cs.countP fun c => c.kind = .comma

/-- Any two arguments have a comma between them. -/
def Separated (cs : List TsNode) : Prop :=
  ∀ a x b y c, cs = a ++ x :: b ++ y :: c → x.kind = .rArgument → y.kind = .rArgument →
    ∃ z ∈ b, z.kind = .comma

/-- The elements `L` of an argument list for the children `cs` between the delimiters: one more
argument than commas; the comma preceded by `i` commas is at index `2 * i + 1`; an argument preceded
by `i` commas is at index `2 * i`; if no argument is preceded by exactly `i` commas, there is a hole
at index `2 * i` (`first` for `i = 0`). -/
structure Slots (first : PTree) (cs : List TsNode) (L : List PTree) : Prop where
  length : L.length = 2 * commas cs + 1
  comma : ∀ a x b, cs = a ++ x :: b → x.kind = .comma →
    L[2 * commas a + 1]? = some (.tok .comma x.stop)
  argument : ∀ a x b, cs = a ++ x :: b → x.kind = .rArgument →
    ∃ ts, conv x = [.node .rArgument ts] ∧ L[2 * commas a]? = some (.node .rArgument ts)
  missing : ∀ i ≤ commas cs, (∀ a x b, cs = a ++ x :: b → x.kind = .rArgument → commas a ≠ i) →
    L[2 * i]? = some (if i = 0 then first else .node .rArgument [])

theorem conv_argument {n : TsNode} (h : n.kind = .rArgument) : ∃ ts, conv n = [.node .rArgument ts] := by
  obtain ⟨k, f, s, e, cs⟩ := n
  obtain rfl : k = .rArgument := h
  exact ⟨clauseUpTo .equal .rArgumentNameClause (items none cs), by simp [conv, classify]⟩

theorem conv_comma {n : TsNode} (h : n.kind = .comma) : conv n = [.tok .comma n.stop] := by
  obtain ⟨k, f, s, e, cs⟩ := n
  obtain rfl : k = .comma := h
  simp [conv, classify, TsNode.stop]

theorem commas_cons (c : TsNode) (cs : List TsNode) :
    commas (c :: cs) = commas cs + if c.kind = .comma then 1 else 0 := by
  simp [commas, List.countP_cons]

theorem separated_tail {c : TsNode} {cs : List TsNode} (h : Separated (c :: cs)) : Separated cs :=
  fun a x b y d e => h (c :: a) x b y d (by rw [e]; rfl)

theorem slots_comment {first : PTree} {c : TsNode} {cs : List TsNode} {L : List PTree}
    (hc : c.kind = .comment) (h : Slots first cs L) : Slots first (c :: cs) L := by
  have hn : (if c.kind = Kind.comma then 1 else 0) = 0 := by simp [hc]
  refine ⟨by rw [h.length, commas_cons, hn]; rfl, ?_, ?_, ?_⟩
  · intro a x b e hx
    cases a with
    | nil => cases e; rw [hc] at hx; cases hx
    | cons y a => cases e; rw [commas_cons, hn]; exact h.comma a x b rfl hx
  · intro a x b e hx
    cases a with
    | nil => cases e; rw [hc] at hx; cases hx
    | cons y a => cases e; rw [commas_cons, hn]; exact h.argument a x b rfl hx
  · intro i hi hm
    rw [commas_cons, hn] at hi
    refine h.missing i hi fun a x b e hx => ?_
    have := hm (c :: a) x b (by rw [e]; rfl) hx
    rwa [commas_cons, hn] at this

theorem slots_comma {first : PTree} {c : TsNode} {cs : List TsNode} {L : List PTree}
    (hc : c.kind = .comma) (h : Slots (.node .rArgument []) cs L) :
    Slots first (c :: cs) (first :: .tok .comma c.stop :: L) := by
  have hn : (if c.kind = Kind.comma then 1 else 0) = 1 := by simp [hc]
  refine ⟨by simp only [List.length_cons, h.length, commas_cons, hn]; omega, ?_, ?_, ?_⟩
  · intro a x b e hx
    cases a with
    | nil => cases e; simp [commas]
    | cons y a =>
      cases e
      rw [commas_cons, hn, Nat.mul_add, Nat.add_right_comm]
      simpa using h.comma a x b rfl hx
  · intro a x b e hx
    cases a with
    | nil => cases e; rw [hc] at hx; cases hx
    | cons y a =>
      cases e
      rw [commas_cons, hn, Nat.mul_add]
      simpa using h.argument a x b rfl hx
  · intro i hi hm
    rw [commas_cons, hn] at hi
    cases i with
    | zero => simp
    | succ i =>
      have := h.missing i (by omega) fun a x b e hx => by
        have := hm (c :: a) x b (by rw [e]; rfl) hx
        rw [commas_cons, hn] at this
        omega
      rw [Nat.mul_add]
      simpa using this

theorem slots_argument {first : PTree} {c : TsNode} {cs : List TsNode} {L ts : List PTree}
    (hc : c.kind = .rArgument) (hs : Separated (c :: cs)) (ht : conv c = [.node .rArgument ts])
    (h : Slots (.node .rArgument ts) cs L) : Slots first (c :: cs) L := by
  have hn : (if c.kind = Kind.comma then 1 else 0) = 0 := by simp [hc]
  have h0 : ∀ a x b, cs = a ++ x :: b → x.kind = .rArgument → commas a ≠ 0 := by
    intro a x b e hx h0
    obtain ⟨z, hz, hk⟩ := hs [] c a x b (by rw [e]; rfl) hc hx
    simp only [commas, List.countP_eq_zero] at h0
    exact h0 z hz (by simpa using hk)
  refine ⟨by rw [h.length, commas_cons, hn]; rfl, ?_, ?_, ?_⟩
  · intro a x b e hx
    cases a with
    | nil => cases e; rw [hc] at hx; cases hx
    | cons y a => cases e; rw [commas_cons, hn]; exact h.comma a x b rfl hx
  · intro a x b e hx
    cases a with
    | nil =>
      cases e
      exact ⟨ts, ht, by simpa [commas] using h.missing 0 (Nat.zero_le _) h0⟩
    | cons y a => cases e; rw [commas_cons, hn]; exact h.argument a x b rfl hx
  · intro i hi hm
    rw [commas_cons, hn] at hi
    have hi0 : i ≠ 0 := fun h => hm [] c cs rfl hc (by simp [commas, h])
    have := h.missing i hi fun a x b e hx => by
      have := hm (c :: a) x b (by rw [e]; rfl) hx
      rwa [commas_cons, hn] at this
    simpa [hi0] using this

theorem slots_argGo (op : Kind) (hop : op ≠ .rArgument) (cs : List TsNode) (hs : Separated cs)
    (hm : ∀ n ∈ cs, n.kind = .rArgument ∨ n.kind = .comma ∨ n.kind = .comment) :
    Slots (.node .rArgument []) cs (argGo op .comma (items none cs)) ∧
    ∀ t, (∀ a x b, cs = a ++ x :: b → x.kind = .rArgument → commas a ≠ 0) →
      Slots t cs (t :: argGo op .rArgument (items none cs)) := by
  induction cs with
  | nil =>
    refine ⟨⟨rfl, by simp, by simp, ?_⟩, fun t _ => ⟨rfl, by simp, by simp, ?_⟩⟩ <;>
      · intro i hi _
        obtain rfl : i = 0 := by simpa [commas] using hi
        simp [argGo, items]
  | cons c cs ih =>
    obtain ⟨ih1, ih2⟩ := ih (separated_tail hs) fun n hn => hm n (by simp [hn])
    rw [items_none_cons, argGo, argGo]
    rcases hm c (by simp) with hc | hc | hc
    · obtain ⟨ts, ht⟩ := conv_argument hc
      have h0 : ∀ a x b, cs = a ++ x :: b → x.kind = .rArgument → commas a ≠ 0 := by
        intro a x b e hx h0
        obtain ⟨z, hz, hk⟩ := hs [] c a x b (by rw [e]; rfl) hc hx
        simp only [commas, List.countP_eq_zero] at h0
        exact h0 z hz (by simpa using hk)
      refine ⟨?_, fun t h => absurd rfl (h [] c cs rfl hc)⟩
      simpa [hc, ht] using slots_argument hc hs ht (ih2 _ h0)
    · refine ⟨?_, fun t _ => ?_⟩
      · simpa [hc, conv_comma hc] using slots_comma (first := .node .rArgument []) hc ih1
      · by_cases ho : op = .rArgument
        · exact absurd ho hop
        · simpa [hc, conv_comma hc, Ne.symm ho] using slots_comma (first := t) hc ih1
    · refine ⟨?_, fun t h => ?_⟩
      · simpa [hc, conv_comment hc] using slots_comment hc ih1
      · simpa [hc, conv_comment hc] using slots_comment hc (ih2 t fun a x b e hx => by
          have := h (c :: a) x b (by rw [e]; rfl) hx
          rwa [commas_cons, if_neg (by simp [hc]), Nat.add_zero] at this)

theorem slots_argList (cs : List TsNode) (hs : Separated cs)
    (hm : ∀ n ∈ cs, n.kind = .rArgument ∨ n.kind = .comma ∨ n.kind = .comment) :
    if ∀ n ∈ cs, n.kind = .comment then argList (items none cs) = []
    else Slots (.node .rArgument []) cs (argList (items none cs)) := by
  split
  · next h =>
    rw [argList, if_pos]
    simp only [List.all_eq_true]
    intro x hx
    obtain ⟨n, hn, rfl⟩ := mem_items_none hx
    simp [h n hn]
  · next h =>
    have ha := argGo_eq .lParen (by decide) (by decide) (items none cs) fun x hx => by
      obtain ⟨n, hn, rfl⟩ := mem_items_none hx
      rcases hm n hn with h | h | h
      · exact .inl h
      · exact .inr (.inl h)
      · exact .inr (.inr ⟨h, conv_comment h⟩)
    have he : argList (items none cs) = argGo .lParen .comma (items none cs) := by
      rw [ha.2.1, argList, if_neg]
      · rfl
      · intro h'
        refine h fun n hn => ?_
        rw [List.all_eq_true] at h'
        simpa using h' ⟨n.kind, conv n⟩ (by rw [items_none]; exact List.mem_map_of_mem hn)
    rw [he]
    exact (slots_argGo .lParen (by decide) cs hs hm).1

/-- **C34**: walking the list of arguments `mid` between delimiters `o` and `c` of a call emits the
events of one node, with the delimiters and between them an argument list: empty if there is
neither an argument nor a comma, otherwise with one argument more than commas; every explicit
argument and every comma is at its place, and there is a hole for every missing argument. -/
theorem C34_positions (text : List Byte) (args op cl k : Kind) (s e : Nat) (o c : TsNode)
    (mid : List TsNode) (w w' : Walk) (hb : (args, op, cl) ∈ brackets)
    (ho : o.kind = op) (hc : c.kind = cl) (hsh : ∀ n ∈ o :: mid ++ [c], Shaped n)
    (hm : ∀ n ∈ mid, n.kind = .rArgument ∨ n.kind = .comma ∨ n.kind = .comment)
    (hs : Separated mid)
    (hw : walkKids text (.call args) [.mk k .arguments s e (o :: mid ++ [c])] w = some w') :
    ∃ L, w'.events = w.events ++
        flat (.node args [.tok op o.stop, .node .rArgumentList L, .tok cl c.stop]) ∧
      if ∀ n ∈ mid, n.kind = .comment then L = [] else Slots (.node .rArgument []) mid L := by
  have hd := delimiters_of hb
  have hd' : Delimited op cl (fun k => k = .rArgument ∨ k = .comma ∨ k = .comment)
      (o :: mid ++ [c]) := by
    refine ⟨o, mid, c, rfl, ho, hc, fun n hn => ⟨?_, ?_, hm n hn⟩⟩ <;>
      · rintro h
        have := hm n hn
        unfold delimiters at hd
        split at hd <;> simp at hd <;> obtain ⟨rfl, rfl⟩ := hd <;> simp [h] at this
  have hwa := walk_arguments text args op cl _ w hd hd' fun n hn => (walkNode_good text n).1 (hsh n hn)
  rw [walkKids] at hw
  simp only [hd, Option.bind_eq_bind, Option.bind_some, walkKids_nil, Loop.done] at hw
  rw [hwa] at hw
  simp only [after, Option.map_eq_some_iff] at hw
  obtain ⟨p, _, rfl⟩ := hw
  refine ⟨argList (items none mid), ?_, slots_argList mid hs hm⟩
  have htok : ∀ n : TsNode, classify n.kind = .token → conv n = [.tok n.kind n.stop] := by
    rintro ⟨k, f, s, e, cs⟩ h
    simp only [TsNode.kind] at h
    simp [conv, h, TsNode.kind, TsNode.stop]
  have hcl : classify op = .token ∧ classify cl = .token := by
    unfold delimiters at hd
    split at hd <;> simp at hd <;> obtain ⟨rfl, rfl⟩ := hd <;> exact ⟨rfl, rfl⟩
  have he : enclosed .rArgumentList argList (items none (o :: mid ++ [c])) =
      [.tok op o.stop, .node .rArgumentList (argList (items none mid)), .tok cl c.stop] := by
    rw [List.cons_append, items_none_cons, items_append, items_none [c]]
    simp [enclosed, Item.all, htok o (ho ▸ hcl.1), htok c (hc ▸ hcl.2), ho, hc]
  rw [he, flats_single]

/-- Kinds of the children of an argument list: arguments separated by commas. -/
def Alternating : List Kind → Prop
  | [.rArgument] => True
  | .rArgument :: .comma :: ks => Alternating ks
  | _ => False

mutual
/-- A property of all nodes of a tree, given kind and kinds of the children. -/
def AllNodes (P : Kind → List Kind → Prop) : Tree → Prop
  | .token _ => True
  | .node k cs => P k (cs.map Tree.kind) ∧ AllNodesList P cs
def AllNodesList (P : Kind → List Kind → Prop) : List Tree → Prop
  | [] => True
  | t :: ts => AllNodes P t ∧ AllNodesList P ts
end

mutual
def PAll (P : Kind → List Kind → Prop) : PTree → Prop
  | .tok _ _ => True
  | .node k cs => P k (cs.map PTree.kind) ∧ PAllList P cs
def PAllList (P : Kind → List Kind → Prop) : List PTree → Prop
  | [] => True
  | t :: ts => PAll P t ∧ PAllList P ts
end

theorem pAllList_iff {P : Kind → List Kind → Prop} {ts : List PTree} :
    PAllList P ts ↔ ∀ t ∈ ts, PAll P t := by
  induction ts with
  | nil => simp [PAllList]
  | cons t ts ih => simp [PAllList, ih]

theorem fits_all {P : Kind → List Kind → Prop} (t : PTree) : ∀ d, Fits t d →
    t.kind = d.kind ∧ (PAll P t → AllNodes P d) := by
  induction t using PTree.induct with
  | h1 k e =>
    intro d h
    cases d with
    | token t => exact ⟨Eq.symm h, fun _ => trivial⟩
    | node => simp [Fits] at h
  | h2 k cs ih =>
    intro d h
    cases d with
    | token t => simp [Fits] at h
    | node k' ds =>
      simp only [Fits] at h
      obtain ⟨rfl, h⟩ := h
      refine ⟨rfl, ?_⟩
      have : cs.map PTree.kind = ds.map Tree.kind ∧ (PAllList P cs → AllNodesList P ds) := by
        induction cs generalizing ds with
        | nil => cases ds with
          | nil => exact ⟨rfl, fun _ => trivial⟩
          | cons => simp [FitsList] at h
        | cons c cs ihc => cases ds with
          | nil => simp [FitsList] at h
          | cons d ds =>
            simp only [FitsList] at h
            obtain ⟨a1, a2⟩ := ih c (by simp) d h.1
            obtain ⟨b1, b2⟩ := ihc (fun c hc => ih c (by simp [hc])) ds h.2
            refine ⟨by simp [a1, b1], fun hp => ?_⟩
            simp only [PAllList] at hp
            exact ⟨a2 hp.1, b2 hp.2⟩
      intro hp
      simp only [PAll] at hp
      simp only [AllNodes]
      exact ⟨this.1 ▸ hp.1, this.2 hp.2⟩

theorem fitsList_all {P : Kind → List Kind → Prop} {ts : List PTree} {ds : List Tree}
    (h : FitsList ts ds) (hp : PAllList P ts) : AllNodesList P ds := by
  induction ts generalizing ds with
  | nil => cases ds with
    | nil => trivial
    | cons => simp [FitsList] at h
  | cons t ts ih => cases ds with
    | nil => simp [FitsList] at h
    | cons d ds =>
      simp only [FitsList] at h
      simp only [PAllList] at hp
      exact ⟨(fits_all t d h.1).2 hp.1, ih h.2 hp.2⟩

/-- What is claimed of the nodes of a syntax tree. -/
def ArgumentListOk (k : Kind) (ks : List Kind) : Prop :=
  k = .rArgumentList → ks = [] ∨ Alternating ks

theorem pall_clause {P : Kind → List Kind → Prop} {k : Kind} {ts : List PTree}
    (hk : ∀ ks, P k ks) (h : ∀ t ∈ ts, PAll P t) : PAll P (.node k ts) := by
  simp only [PAll]
  exact ⟨hk _, pAllList_iff.mpr h⟩

theorem mem_all {xs : List Item} {t : PTree} : t ∈ Item.all xs ↔ ∃ x ∈ xs, t ∈ x.trees := by
  simp only [Item.all, List.mem_flatten, List.mem_map]
  exact ⟨fun ⟨l, ⟨a, h1, h2⟩, h3⟩ => ⟨a, h1, h2 ▸ h3⟩, fun ⟨a, h1, h2⟩ => ⟨_, ⟨a, h1, rfl⟩, h2⟩⟩

theorem pall_clauseFrom {P : Kind → List Kind → Prop} {k clause : Kind} {xs : List Item}
    (hk : ∀ ks, P clause ks) (h : ∀ t ∈ Item.all xs, PAll P t) :
    ∀ t ∈ clauseFrom k clause xs, PAll P t := by
  intro t ht
  have h1 : ∀ t ∈ Item.all (xs.takeWhile fun x => x.kind != k), PAll P t := fun t ht => by
    obtain ⟨x, hx, ht⟩ := mem_all.mp ht
    exact h t (mem_all.mpr ⟨x, (List.takeWhile_sublist _).subset hx, ht⟩)
  have h2 : ∀ t ∈ Item.all (xs.dropWhile fun x => x.kind != k), PAll P t := fun t ht => by
    obtain ⟨x, hx, ht⟩ := mem_all.mp ht
    exact h t (mem_all.mpr ⟨x, (List.dropWhile_sublist _).subset hx, ht⟩)
  rw [clauseFrom, List.mem_append] at ht
  rcases ht with ht | ht
  · exact h1 t ht
  · cases hr : xs.dropWhile fun x => x.kind != k with
    | nil => simp [hr] at ht
    | cons a r =>
      simp only [hr, List.mem_singleton] at ht
      subst ht
      rw [hr] at h2
      exact pall_clause hk h2

theorem pall_clauseUpTo {P : Kind → List Kind → Prop} {k clause : Kind} {xs : List Item}
    (hk : ∀ ks, P clause ks) (h : ∀ t ∈ Item.all xs, PAll P t) :
    ∀ t ∈ clauseUpTo k clause xs, PAll P t := by
  intro t ht
  rw [clauseUpTo] at ht
  cases hr : xs.dropWhile fun x => x.kind != k with
  | nil => simp only [hr] at ht; exact h t ht
  | cons a r =>
    have h1 : ∀ t ∈ Item.all (xs.takeWhile fun x => x.kind != k), PAll P t := fun t ht => by
      obtain ⟨x, hx, ht⟩ := mem_all.mp ht
      exact h t (mem_all.mpr ⟨x, (List.takeWhile_sublist _).subset hx, ht⟩)
    have h2 : ∀ t ∈ Item.all (a :: r), PAll P t := fun t ht => by
      obtain ⟨x, hx, ht⟩ := mem_all.mp ht
      exact h t (mem_all.mpr ⟨x, (List.dropWhile_sublist _).subset (hr ▸ hx), ht⟩)
    rw [Item.all_cons] at h2
    simp only [hr, List.mem_cons] at ht
    rcases ht with rfl | ht
    · refine pall_clause hk fun t ht => ?_
      rcases List.mem_append.mp ht with ht | ht
      · exact h1 t ht
      · exact h2 t (List.mem_append_left _ ht)
    · exact h2 t (List.mem_append_right _ ht)

theorem pall_enclosed {P : Kind → List Kind → Prop} {lk : Kind} {inner : List Item → List PTree}
    {xs : List Item} (hk : ∀ o r, xs = o :: r → P lk ((inner r.dropLast).map PTree.kind))
    (hi : ∀ o r, xs = o :: r → ∀ t ∈ inner r.dropLast, PAll P t)
    (h : ∀ t ∈ Item.all xs, PAll P t) : ∀ t ∈ enclosed lk inner xs, PAll P t := by
  intro t ht
  cases xs with
  | nil => simp [enclosed] at ht
  | cons o r =>
    rw [Item.all_cons] at h
    simp only [enclosed, List.mem_append, List.mem_singleton] at ht
    rcases ht with (ht | rfl) | ht
    · exact h t (List.mem_append_left _ ht)
    · simp only [PAll]
      exact ⟨hk o r rfl, pAllList_iff.mpr (hi o r rfl)⟩
    · refine h t (List.mem_append_right _ ?_)
      obtain ⟨x, hx, ht⟩ := mem_all.mp ht
      exact mem_all.mpr ⟨x, List.mem_of_getLast? (by simpa using hx), ht⟩

/-- The elements of an argument list are arguments separated by commas. -/
theorem alternating_argGo (op : Kind) (hop : op ≠ .rArgument) (cs : List TsNode) (hs : Separated cs)
    (hm : ∀ n ∈ cs, n.kind = .rArgument ∨ n.kind = .comma ∨ n.kind = .comment) :
    Alternating ((argGo op .comma (items none cs)).map PTree.kind) ∧
    ((∀ a x b, cs = a ++ x :: b → x.kind = .rArgument → commas a ≠ 0) →
      Alternating (.rArgument :: (argGo op .rArgument (items none cs)).map PTree.kind)) := by
  induction cs with
  | nil => simp [argGo, items, Alternating, PTree.kind]
  | cons c cs ih =>
    obtain ⟨ih1, ih2⟩ := ih (separated_tail hs) fun n hn => hm n (by simp [hn])
    rw [items_none_cons, argGo, argGo]
    rcases hm c (by simp) with hc | hc | hc
    · obtain ⟨ts, ht⟩ := conv_argument hc
      have h0 : ∀ a x b, cs = a ++ x :: b → x.kind = .rArgument → commas a ≠ 0 := by
        intro a x b e hx h0
        obtain ⟨z, hz, hk⟩ := hs [] c a x b (by rw [e]; rfl) hc hx
        simp only [commas, List.countP_eq_zero] at h0
        exact h0 z hz (by simpa using hk)
      refine ⟨?_, fun h => absurd rfl (h [] c cs rfl hc)⟩
      simpa [hc, ht, PTree.kind] using ih2 h0
    · refine ⟨?_, fun _ => ?_⟩
      · simpa [hc, conv_comma hc, PTree.kind, Alternating] using ih1
      · simpa [hc, conv_comma hc, Ne.symm hop, PTree.kind, Alternating] using ih1
    · refine ⟨?_, fun h => ?_⟩
      · simpa [hc, conv_comment hc] using ih1
      · simpa [hc, conv_comment hc] using ih2 fun a x b e hx => by
          have := h (c :: a) x b (by rw [e]; rfl) hx
          rwa [commas_cons, if_neg (by simp [hc]), Nat.add_zero] at this

theorem mem_argGo {op prev : Kind} {xs : List Item} {t : PTree} (h : t ∈ argGo op prev xs) :
    t = .node .rArgument [] ∨ t ∈ Item.all xs := by
  induction xs generalizing prev with
  | nil => rw [argGo] at h; split at h <;> simp_all
  | cons x xs ih =>
    rw [argGo, List.mem_append, List.mem_append] at h
    rw [Item.all_cons, List.mem_append]
    rcases h with (h | h) | h
    · split at h <;> simp_all
    · exact .inr (.inl h)
    · rcases ih h with h | h
      · exact .inl h
      · exact .inr (.inr h)

theorem pall_items {P : Kind → List Kind → Prop} {cs : List TsNode}
    (h : ∀ c ∈ cs, ∀ t ∈ conv c, PAll P t) : ∀ t ∈ Item.all (items none cs), PAll P t := by
  intro t ht
  obtain ⟨x, hx, ht⟩ := mem_all.mp ht
  obtain ⟨n, hn, rfl⟩ := mem_items_none hx
  exact h n hn t ht

theorem pall_arguments {args : Kind} (cs : List TsNode) (hd : ArgumentsShape args cs)
    (h : ∀ c ∈ cs, ∀ t ∈ conv c, PAll ArgumentListOk t) :
    PAll ArgumentListOk (.node args (enclosed .rArgumentList argList (items none cs))) := by
  obtain ⟨op, cl, hdl, ⟨o, mid, c, rfl, ho, hc, hm⟩, hs⟩ := hd
  have hsm : Separated mid := fun a x b y d e hx hy => hs (o :: a) x b y (d ++ [c]) (by
    rw [e]; simp) hx hy
  have hm := fun n hn => (hm n hn).2.2
  have hmid : ∀ t ∈ Item.all (items none mid), PAll ArgumentListOk t :=
    pall_items fun n hn => h n (by simp [hn])
  have hidx : ∀ x r, items none (o :: mid ++ [c]) = x :: r → r.dropLast = items none mid := by
    intro x r e
    rw [List.cons_append, items_none_cons, items_append, List.cons.injEq] at e
    rw [← e.2, items_none [c]]
    simp
  have hgo := argGo_eq .lParen (by decide) (by decide) (items none mid) fun x hx => by
    obtain ⟨n, hn, rfl⟩ := mem_items_none hx
    rcases hm n hn with h | h | h
    · exact .inl h
    · exact .inr (.inl h)
    · exact .inr (.inr ⟨h, conv_comment h⟩)
  refine pall_clause (fun ks h => ?_) (pall_enclosed ?_ ?_ (pall_items h))
  · subst h; simp [brackets] at hdl
  · intro x r e _
    rw [hidx x r e]
    by_cases hall : (items none mid).all (·.kind == .comment)
    · left; rw [argList, if_pos hall]; rfl
    · right
      have he : argList (items none mid) = argGo .lParen .comma (items none mid) := by
        rw [hgo.2.1, argList, if_neg hall]; rfl
      rw [he]
      exact (alternating_argGo .lParen (by decide) mid hsm hm).1
  · intro x r e t ht
    rw [hidx x r e, ← hgo.2.2] at ht
    rcases mem_argGo ht with rfl | ht
    · exact pall_clause (fun ks h => by cases h) (by simp)
    · exact hmid t ht

theorem pall_conv (n : TsNode) : (Shaped n → ∀ t ∈ conv n, PAll ArgumentListOk t) ∧
    ∀ d ∈ n.children, Shaped d → ∀ t ∈ conv d, PAll ArgumentListOk t := by
  induction n using TsNode.induct with
  | h k f s e cs ih =>
  refine ⟨fun hs t ht => ?_, fun d hd => (ih d hd).1⟩
  have hg : ShapedList none cs → ∀ t ∈ Item.all (items none cs), PAll ArgumentListOk t :=
    fun h => pall_items fun c hc => (ih c hc).1 (shapedList_none h c hc)
  have hok : ∀ ks, ArgumentListOk k ks := by
    rintro ks rfl; simp [Shaped, classify] at hs
  have hcl : ∀ k', k' ≠ .rArgumentList → ∀ ks, ArgumentListOk k' ks := fun k' h ks h' => absurd h' h
  rw [conv] at ht
  rw [Shaped] at hs
  cases hk : classify k <;> simp only [hk, List.mem_singleton, List.not_mem_nil] at hs ht <;>
    subst ht
  case node => exact pall_clause hok (hg hs)
  case call args =>
    refine pall_clause hok ?_
    clear hg hk hok
    induction cs with
    | nil => simp [items]
    | cons c cs ihc =>
      obtain ⟨k', f', s', e', ds⟩ := c
      simp only [ShapedList] at hs
      obtain ⟨hs1, hs2⟩ := hs
      have ihc := ihc (fun c hc => ih c (by simp [hc])) hs2
      obtain ⟨g1, g2⟩ := ih (.mk k' f' s' e' ds) (by simp)
      intro t ht
      by_cases hf : f' = .arguments
      · subst hf
        obtain ⟨hu, hl, hsh⟩ := hs1
        simp only [items, Item.all_cons, List.mem_append, List.mem_singleton] at ht
        rcases ht with rfl | ht
        · exact pall_arguments ds hsh fun c hc => g2 c hc (shapedList_none hl c hc)
        · exact ihc t ht
      · have hsh : Shaped (.mk k' f' s' e' ds) := by
          revert hs1; cases f' <;> simp_all
        have hi : items (some args) (.mk k' f' s' e' ds :: cs) =
            ⟨k', conv (.mk k' f' s' e' ds)⟩ :: items (some args) cs := by
          rw [items]; intro a h1 h2; exact hf h2
        rw [hi, Item.all_cons, List.mem_append] at ht
        rcases ht with ht | ht
        · exact g1 hsh t ht
        · exact ihc t ht
  case parameters =>
    exact pall_clause hok (pall_enclosed (fun _ _ _ => hcl _ (by decide) _) (fun o r e t ht => by
      refine hg hs.1 t ?_
      obtain ⟨x, hx, ht⟩ := mem_all.mp ht
      exact mem_all.mpr ⟨x, e ▸ List.mem_cons_of_mem _ ((List.dropLast_sublist _).subset hx), ht⟩) (hg hs.1))
  case parameter => exact pall_clause hok (pall_clauseFrom (hcl _ (by decide)) (hg hs.1))
  case ifStatement => exact pall_clause hok (pall_clauseFrom (hcl _ (by decide)) (hg hs.1))
  case argument => exact pall_clause hok (pall_clauseUpTo (hcl _ (by decide)) (hg hs.1))
  case braced =>
    exact pall_clause hok (pall_enclosed (fun _ _ _ => hcl _ (by decide) _) (fun o r e t ht => by
      refine hg hs.1 t ?_
      obtain ⟨x, hx, ht⟩ := mem_all.mp ht
      exact mem_all.mpr ⟨x, e ▸ List.mem_cons_of_mem _ ((List.dropLast_sublist _).subset hx), ht⟩) (hg hs.1))
  case value => exact pall_clause hok (by simp [PAll])
  case atom => exact pall_clause hok (by simp [PAll])
  all_goals simp [PAll]

/-- **C34**: in the syntax tree of every text, every argument list is empty or consists of arguments
separated by commas, starting and ending with an argument. -/
theorem C34_alternating (text : List Byte) (root : TsNode) (hs : ShapedRoot root)
    (he : root.stop = text.length) (ht : Tiled text text.length 0 false (leaves root)) :
    ∃ t, parse text root false = some (t, false) ∧
      AllNodes (fun k ks => k = .rArgumentList → ks = [] ∨ Alternating ks) t := by
  obtain ⟨trees, eof, hd, tl, h1, h2, _⟩ := parse_ok text root hs he ht
  refine ⟨_, h1, ?_⟩
  have hp : AllNodesList ArgumentListOk trees := by
    refine fitsList_all h2 (pAllList_iff.mpr (pall_items fun c hc => ?_))
    obtain ⟨k, f, s, e, cs⟩ := root
    exact (pall_conv c).1 (shapedList_none hs.2 c hc)
  simp only [AllNodes, AllNodesList, and_true]
  exact ⟨fun h => (by cases h), fun h => (by cases h), hp⟩

/-! ## C35 -/

/-- **C35**: the events sent to the tree builder are those of a single well nested tree whose tokens
are those of the source; building the tree never fails. -/
theorem C35_balanced (text : List Byte) (root : TsNode) (hs : ShapedRoot root)
    (he : root.stop = text.length) (ht : Tiled text text.length 0 false (leaves root)) :
    ∃ w tree t, walkNode text root Walk.new = some w ∧ w.events = flat tree ∧
      ptoks tree = ((leaves root).filter fun l => !l.isComment).map (fun l => (l.kind, l.stop)) ∧
      parse text root false = some (t, false) ∧ t.kind = .rRoot := by
  obtain ⟨trees, eof, hd, tl, h1, _⟩ := parse_ok text root hs he ht
  have hw := walk_root text root hs
  cases hp : (leafFold text (leaves root) ⟨[], 0, false⟩).bind (rootStep text root.stop) with
  | none => simp [hp] at hw; simp [parse, hw] at h1
  | some p =>
    rw [hp, Option.map_some] at hw
    exact ⟨_, rootTree root, _, hw, rfl, by rw [rootTree, ptoks, ptoks_root root hs]; rfl, h1, rfl⟩

/-- **C35**: a syntax error gives a tree with one token for the whole text, the end of the file, and
an error, whatever tree tree-sitter returns. -/
theorem C35_error (text : List Byte) (root : TsNode) :
    parse text root true = some (.node .rRoot [.node .rExpressionList [.node .rBogusExpression
      [.token ⟨.rBogus, [], text, []⟩]], .token ⟨.eof, [], [], []⟩], true) := by
  simp [parse, buildTree, failureEvents, Sink.event, Sink.token, buildToken, eatTrivia, slice,
    Sink.push]

theorem mem_of_lookup {α β : Type} [BEq α] [LawfulBEq α] {l : List (α × β)} {a : α} {b : β}
    (h : l.lookup a = some b) : (a, b) ∈ l := by
  induction l with
  | nil => simp at h
  | cons x l ih =>
    obtain ⟨a', b'⟩ := x
    rw [List.lookup_cons] at h
    split at h
    · next he => simp_all
    · exact List.mem_cons_of_mem _ (ih h)

/-- **C35**: every kind of node that has a syntax kind at all is handled by the walk. -/
theorem C35_kinds (name : String) (k : Kind) (h : nodeSyntaxKind name = some k) :
    classify k ≠ .unreachable := by
  have hall : ∀ p ∈ nodeKinds, classify p.2 ≠ .unreachable := by decide +kernel
  exact hall _ (mem_of_lookup h)

/-- **C35**: the kind of an operator, delimiter or keyword is the one whose text is the name of the
node; only commas and missing values are named differently. -/
theorem C35_names (name : String) (k : Kind) (h : nodeSyntaxKind name = some k)
    (hk : classify k = .token) :
    kindTexts.lookup k = some name ∨ (name = "comma" ∧ k = .comma) ∨ (name = "special" ∧ k = .special) ∨
      (name = "string_open" ∧ k = .stringOpen) ∨ (name = "string_close" ∧ k = .stringClose) ∨
      (name, k) ∈ [("NA", .naLogicalKw), ("NA_integer_", .naIntegerKw), ("NA_real_", .naDoubleKw),
        ("NA_complex_", .naComplexKw), ("NA_character_", .naCharacterKw)] := by
  have hall : ∀ p ∈ nodeKinds, classify p.2 = .token →
      kindTexts.lookup p.2 = some p.1 ∨ (p.1 = "comma" ∧ p.2 = .comma) ∨
      (p.1 = "special" ∧ p.2 = .special) ∨ (p.1 = "string_open" ∧ p.2 = .stringOpen) ∨
      (p.1 = "string_close" ∧ p.2 = .stringClose) ∨
      p ∈ [("NA", .naLogicalKw), ("NA_integer_", .naIntegerKw), ("NA_real_", .naDoubleKw),
        ("NA_complex_", .naComplexKw), ("NA_character_", .naCharacterKw)] := by decide +kernel
  exact hall _ (mem_of_lookup h) hk

/-- **C35**: different names have different kinds. -/
theorem C35_names_injective (a b : String) (k : Kind) (ha : nodeSyntaxKind a = some k)
    (hb : nodeSyntaxKind b = some k) : a = b := by
  have hall : ∀ p ∈ nodeKinds, ∀ q ∈ nodeKinds, p.2 = q.2 → p.1 = q.1 := by decide +kernel
  exact hall _ (mem_of_lookup ha) _ (mem_of_lookup hb) rfl

/-- **C35**: different kinds have different texts, so a text of an operator, delimiter or keyword names one kind. -/
theorem C35_texts_injective (a b : Kind) (text : String) (ha : kindTexts.lookup a = some text)
    (hb : kindTexts.lookup b = some text) : a = b := by
  have hall : ∀ p ∈ kindTexts, ∀ q ∈ kindTexts, p.2 = q.2 → p.1 = q.1 := by decide +kernel
  exact hall _ (mem_of_lookup ha) _ (mem_of_lookup hb) rfl

example : nodeSyntaxKind "->>" = some .superAssignRight := by decide +kernel

/-! ## A concrete case

`f(,x) # c` and a line end: a call with a missing argument and a comment. -/

def demoText : List Byte := [102, 40, 44, 120, 41, 32, 35, 99, 10]

def demo : TsNode :=
  .mk .rRoot .none 0 9
    [.mk .rCall .none 0 5
      [.mk .rIdentifier .other 0 1 [],
       .mk .rCallArguments .arguments 1 5
         [.mk .lParen .none 1 2 [], .mk .comma .none 2 3 [],
          .mk .rArgument .none 3 4 [.mk .rIdentifier .other 3 4 []], .mk .rParen .none 4 5 []]],
     .mk .comment .none 6 8 []]

/-- The tree meets the hypotheses of the theorems. -/
theorem demo_hypotheses : ShapedRoot demo ∧ demo.stop = demoText.length ∧
    Tiled demoText demoText.length 0 false (leaves demo) := by
  refine ⟨?_, rfl, ?_⟩
  · simp only [ShapedRoot, demo, ShapedList, Shaped, classify, true_and, and_true]
    refine ⟨?_, .lParen, .rParen, by decide, ⟨_, [_, _], _, rfl, rfl, rfl, ?_⟩, ?_⟩
    · simp [ArgumentShape, TsNode.kind, TsNode.field]
    · simp [TsNode.kind]
    · intro a x b y c e hx hy
      have := congrArg (List.countP fun n => n.kind = .rArgument) e
      simp [List.countP_cons, hx, hy] at this
      simp [TsNode.kind] at this
      omega
  · simp [demo, demoText, leaves, leavesList, classify, Tiled, between, isGapByte, LineEnd]

mutual
/-- Kind and number of children of all nodes, in preorder. -/
def outline : Tree → List (Kind × Nat)
  | .token t => [(t.kind, 0)]
  | .node k cs => (k, cs.length) :: outlineList cs
def outlineList : List Tree → List (Kind × Nat)
  | [] => []
  | t :: ts => outline t ++ outlineList ts
end

/-- The syntax tree has a hole before the comma, and the comment trails the call. -/
example : (parse demoText demo false).map (fun p => (outline p.1, p.1.tokens)) = some
    ([(.rRoot, 2), (.rExpressionList, 1), (.rCall, 2), (.rIdentifier, 1), (.ident, 0),
      (.rCallArguments, 3), (.lParen, 0), (.rArgumentList, 3), (.rArgument, 0), (.comma, 0),
      (.rArgument, 1), (.rIdentifier, 1), (.ident, 0), (.rParen, 0), (.eof, 0)],
     [⟨.ident, [], [102], []⟩, ⟨.lParen, [], [40], []⟩, ⟨.comma, [], [44], []⟩,
      ⟨.ident, [], [120], []⟩,
      ⟨.rParen, [], [41], [⟨.whitespace, [32]⟩, ⟨.comment, [35, 99]⟩]⟩,
      ⟨.eof, [⟨.newline, [10]⟩], [], []⟩]) := by decide +kernel

end Verif.Parser
