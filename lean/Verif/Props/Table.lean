import Verif.Props.Lines
import Verif.Lemmas.TableSource

/-!
# C40: tables
-/

namespace Verif.Format
open Verif.Syntax Ex

/-- C40: the table has the arguments in order, divided into rows exactly where the source has a line
break before an argument (or before the separator of a hole). -/
theorem C40_rows (cs : List Cell) :
    (buildTable cs).rows.flatten = cs ∧ (∀ r ∈ (buildTable cs).rows, r ≠ [] ∧ ∀ c ∈ r.tail, c.rowLines = 0) ∧
    (∀ r ∈ (buildTable cs).rows.tail, ∀ c ∈ r.head?, 0 < c.rowLines) := by
  refine ⟨buildTable_flatten cs, buildTable_rows cs, ?_⟩
  have h := buildTable_heads cs
  generalize (buildTable cs).rows.tail = rs at h
  induction rs with
  | nil => intro r hr; cases hr
  | cons r rs ih =>
    intro r' hr'
    rcases List.mem_cons.mp hr' with rfl | hr'
    · exact h.1
    · exact ih h.2 r' hr'

/-- C40: laying out the table of a call never fails: no column is missing and no separator is. -/
theorem C40_no_panic (o : Opts) (items : Items) (i : Nat) (cs : List Cell)
    (hC : Cells i (!((fmtItems o { inArg := true } true items).dropWhile (fun x => !x.arg.isNamed)).isEmpty)
      ((fmtItems o { inArg := true } true items).takeWhile (fun x => !x.arg.isNamed)) cs) :
    ∃ x, tableEls i (buildTable cs) = some x :=
  tableEls_some i (cells_lasts _ cs hC (items_seps o _ _ items)).2

theorem rowEls_toks (cols : List ColumnInfo) (r : List Cell) : ∀ (j : Nat) (x : List El),
    rowEls cols j r = some x →
      printedToks x = r.flatMap (fun c => printedToks c.body ++ c.sep.toList) := by
  have hp : ∀ n, printedToks (padEls n) = [] := by intro n; unfold padEls; split <;> rfl
  induction r with
  | nil => intro j x h; cases h; rfl
  | cons c r ih =>
    intro j x h
    simp only [rowEls] at h
    split at h
    · rename_i a b ha hb
      cases h
      rw [printedToks_append, ih _ _ hb, List.flatMap_cons]
      congr 1
      unfold cellEls at ha
      split at ha
      · cases ha
      · dsimp only at ha
        split at ha
        · rename_i s hs
          cases ha
          rw [hs]
          have : ∀ (b : Bool) n, printedToks (if b then [] else padEls n) = [] := by
            intro b n; cases b <;> simp [hp, printedToks]
          simp [printedToks_append, hp, this, printedToks]
        · rename_i hs
          split at ha
          · cases ha
            rw [hs]
            simp [printedToks_append, hp, printedToks]
          · cases ha
    · cases h

/-- C40: the tokens of the arguments and the separators are printed in order, and nothing else. -/
theorem C40_order (cs : List Cell) (i : Nat) (x : List El) (hx : tableEls i (buildTable cs) = some x) :
    printedToks x = cs.flatMap (fun c => printedToks c.body ++ c.sep.toList) := by
  have hf : cs.flatMap (fun c => printedToks c.body ++ c.sep.toList) =
      ((buildTable cs).rows.map (fun r => r.flatMap (fun c => printedToks c.body ++ c.sep.toList))).flatten := by
    refine (congrArg (List.flatMap _) (buildTable_flatten cs).symm).trans ?_
    generalize (buildTable cs).rows = rs
    induction rs with
    | nil => rfl
    | cons r rs ih => rw [List.flatten_cons, List.flatMap_append, ih]; rfl
  rw [hf]
  have hm : ∀ (rs : List (List Cell)) (y : List El), moreRows (buildTable cs).cols i rs = some y →
      printedToks y = (rs.map (fun r => r.flatMap (fun c => printedToks c.body ++ c.sep.toList))).flatten := by
    intro rs
    induction rs with
    | nil => intro y h; cases h; rfl
    | cons r rs ih =>
      intro y h
      simp only [moreRows] at h
      split at h
      · rename_i a b ha hb
        cases h
        rw [printedToks_append, printedToks_append, rowEls_toks _ _ _ _ ha, ih _ hb]
        cases r <;> simp [rowBreak, printedToks]
      · cases h
  unfold tableEls at hx
  cases hr : (buildTable cs).rows with
  | nil => rw [hr] at hx; cases hx; rfl
  | cons r rs =>
    rw [hr] at hx
    dsimp only at hx
    split at hx
    · rename_i a b ha hb
      cases hx
      rw [printedToks_append, rowEls_toks _ _ _ _ ha, hm _ _ hb]
      rfl
    · cases hx

/-- An argument `n = e` or `n =`. -/
inductive HasName : Arg → Prop
  | value {a na n eq e} : HasName (.named a na n eq e)
  | empty {a na n eq} : HasName (.name a na n eq)

theorem hasName_iff (x : Arg) : x.isNamed = true ↔ HasName x := by
  constructor
  · intro h
    cases x with
    | name => exact .empty
    | named => exact .value
    | _ => cases h
  · intro h; cases h <;> rfl

/-- The arguments `ds`, each on a line of its own. -/
inductive OwnLines (i : Nat) : List ItemDoc → List El → Prop
  | nil : OwnLines i [] []
  | cons {d ds e es} (blank : Bool) (h : Lays false .expanded i d.full e) (hs : OwnLines i ds es) :
      OwnLines i (d :: ds) (.nl blank i :: (e ++ es))

theorem argsTail_lines {i : Nat} (ds : List ItemDoc) : ∀ (y : List El), Lays false .expanded i (argsTail ds) y →
    OwnLines i ds y := by
  induction ds with
  | nil => intro y h; cases h; exact .nil
  | cons d ds ih =>
    intro y h
    obtain ⟨a, b, rfl, ha, e, es, rfl, he, hes⟩ := h
    have : ∃ blank, a = [.nl blank i] := by
      split at ha <;> cases ha <;> exact ⟨_, rfl⟩
    obtain ⟨blank, rfl⟩ := this
    exact .cons (e := e) (es := es) blank he (ih _ hes)

/-- C40: the table ends at the first argument with a name. Unless the source is kept, the arguments before it are
the cells, and this one and all after it have a line each, in the order of the source. -/
theorem C40_named (o : Opts) (m : Mode) (aa : Ann) (l : Token) (items : Items) (ds : List ItemDoc) (r : Token)
    (hne : ds ≠ []) (i : Nat) (els : List El) (h : Lays false m i (tableDoc o aa l items ds r) els) :
    Lays false m i (verbatimDoc aa (l :: (items.tokens ++ [r]))) els ∨
    ∃ cells rest x y, ds = cells ++ rest ∧
      (∀ d ∈ cells, ¬ HasName d.arg) ∧ (∀ d ∈ rest.head?, HasName d.arg) ∧
      els = [.tok (outTok l), .nl false (i + 1)] ++ x ++ y ++ [.nl false i, .tok (outTok r)] ∧
      Lays false .expanded (i + 1) (tableRows true cells) x ∧
      (rest = [] ∧ y = [] ∨ ∃ y', y = .nl false (i + 1) :: y' ∧ OwnLines (i + 1) rest y') := by
  unfold tableDoc at h
  rw [if_neg (by cases ds <;> simp_all)] at h
  rcases h with h | h
  · refine .inr ⟨ds.takeWhile (fun x => !x.arg.isNamed), ds.dropWhile (fun x => !x.arg.isNamed), ?_⟩
    obtain ⟨m', hm, a, b, rfl, ha, c, d, rfl, hc, hd⟩ := h
    obtain rfl := hm rfl rfl
    obtain ⟨e, f, rfl, ⟨g, k, rfl, hg, x, y, rfl, hx, hy⟩, hf⟩ := hc
    cases ha; cases hd; cases hg; cases hf
    refine ⟨x, y, (List.takeWhile_append_dropWhile).symm, ?_, ?_, ?_, hx, ?_⟩
    · intro d hd
      rw [← hasName_iff]
      have := List.all_takeWhile (p := fun x : ItemDoc => !x.arg.isNamed) (l := ds)
      simpa using List.all_eq_true.mp this d hd
    · intro d hd
      rw [← hasName_iff]
      have := List.head?_dropWhile_not (fun x : ItemDoc => !x.arg.isNamed) ds
      rw [hd] at this
      simpa using this
    · simp [layLine]
    · generalize ds.dropWhile (fun x => !x.arg.isNamed) = rest at hy
      cases rest with
      | nil => cases hy; exact .inl ⟨rfl, rfl⟩
      | cons d rest =>
        obtain ⟨p, q, rfl, hp, hq⟩ := hy
        cases hp
        exact .inr ⟨q, rfl, argsTail_lines _ _ hq⟩
  · exact .inl h

/-- The padding that air computes is one of the layouts for which the other theorems about formatting
(C36, C38, C39, C41, C42) are proved. -/
theorem C40_layout (o : Opts) (m : Mode) (aa : Ann) (l : Token) (items : Items) (ds : List ItemDoc) (r : Token)
    (hne : ds ≠ []) (i : Nat) (cs : List Cell) (x y : List El)
    (hC : Cells (i + 1) (!(ds.dropWhile (fun x => !x.arg.isNamed)).isEmpty)
      (ds.takeWhile (fun x => !x.arg.isNamed)) cs)
    (hx : tableEls (i + 1) (buildTable cs) = some x)
    (hy : Lays false .expanded (i + 1) (remainingDoc (ds.dropWhile (fun x => !x.arg.isNamed))) y) :
    Lays false m i (tableDoc o aa l items ds r)
      ([.tok (outTok l), .nl false (i + 1)] ++ x ++ y ++ [.nl false i, .tok (outTok r)]) := by
  unfold tableDoc
  rw [if_neg (by cases ds <;> simp_all)]
  refine .inl ⟨.expanded, fun _ _ => rfl, [.tok (outTok l)], _, ?_, rfl,
    [.nl false (i + 1)] ++ (x ++ y) ++ [.nl false i], [.tok (outTok r)], rfl, ?_, rfl⟩
  · simp
  · exact ⟨_, _, rfl, ⟨_, _, rfl, rfl, _, _, rfl, table_lays hC hx, hy⟩, rfl⟩

/-- C40: every row is on one line, each separator in a column is at the same position in all rows, each
decimal point in a column is at the same position in all rows, and empty lines between rows are kept;
whatever is printed before and after the table, and for any number of rows of any length. Missing: tables
with a comment inside a cell, or before a cell that is not the first in its row or is a number
(`C40_comment_misaligned` shows that the last case is not aligned). -/
theorem C40_columns_partial (o : Opts) (items : Items) (i : Nat) (cs : List Cell)
    (hT : AllTidy true ((fmtItems o { inArg := true } true items).takeWhile (fun x => !x.arg.isNamed)))
    (hC : Cells i (!((fmtItems o { inArg := true } true items).dropWhile (fun x => !x.arg.isNamed)).isEmpty)
      ((fmtItems o { inArg := true } true items).takeWhile (fun x => !x.arg.isNamed)) cs)
    (hne : ∀ c ∈ cs, ∀ t ∈ printedToks c.body, 0 < chars t.text)
    (l : Tok) (before after : List El) :
    ∃ x, tableEls i (buildTable cs) = some x ∧ ∃ f g p out q,
      emit (before ++ [.tok l, .nl false i] ++ x ++ after) = p ++ [.rnl] ++ out ++ q ∧
      TablePrinted f g (buildTable cs).rows out := by
  obtain ⟨hl, hs⟩ := cells_lasts _ cs hC (items_seps o _ _ items)
  obtain ⟨x, hx⟩ := tableEls_some i hs
  have hN := neat_rows (fun d hd => items_isItem o _ items d ((List.takeWhile_sublist _).subset hd)) hT hC hne
  refine ⟨x, hx, sepAt (buildTable cs).cols i, pointAt (buildTable cs).cols i, ?_⟩
  have hst : (run {} (before ++ [.tok l])).2.started = true := by
    rw [run_append, run_single]
    rfl
  obtain ⟨cm, s', h1, -, h2, h3, -⟩ := nl_print hst false i
  have hp := table_print h2 h3 hl hN hx
  rw [emit, printEls_run, show before ++ [.tok l, .nl false i] ++ x ++ after =
    (before ++ [.tok l]) ++ ([.nl false i] ++ (x ++ after)) by simp]
  generalize before ++ [El.tok l] = b at hst h1
  rw [run_append, run_append _ [.nl false i], run_append _ x, run_single, h1]
  exact ⟨(run {} b).1 ++ cm, (run s' x).1, (run (run s' x).2 after).1 ++ (flush (run (run s' x).2 after).2).1,
    by simp [List.append_assoc], hp⟩

/-! ## Examples -/

namespace Ex

/-- An argument. -/
def val (e : Expr) : Arg := .val {} e

/-- A comma. -/
def com : Token := tk .comma ","

/-- `# fmt: table f(` with the rows `1499.99, a, bc` and `-9.5, bcd,` and `3L,b` and `, x`. -/
def tableItems : Items :=
  .cons (val (num (tn .rDoubleLiteral "1499.99"))) com
  (.cons (val (id (ts .ident "a"))) com
  (.cons (val (id (ts .ident "bc"))) com
  (.cons (val (.unary {} (tn .minus "-") (num (tk .rDoubleLiteral "9.5")))) com
  (.cons (val (id (ts .ident "bcd"))) com
  (.cons (val (.atom {} .rIntegerValue (after 2 .rIntegerLiteral "3L"))) com
  (.cons (val (id (ts .ident "b"))) com
  (.cons (.hole {}) (tn .comma ",")
  (.last (val (id (ts .ident "x")))))))))))

/-- Its entries. -/
def tableDs : List ItemDoc :=
  fmtItems (opts .arrow []) { inArg := true } true tableItems

/-- Its cells. -/
def tableCells : List Cell := flatCells 1 false tableDs

/-- The table inside of `f(` and `)`. -/
def tableText (cs : List Cell) : List Byte :=
  render (emit ([.tok ⟨.ident, tx "f"⟩, .tok ⟨.lParen, tx "("⟩, .nl false 1] ++
    ((tableEls 1 (buildTable cs)).getD []) ++ [.nl false 0, .tok ⟨.rParen, tx ")"⟩]))

/-- `f(1, bc, k = 2, d)`: a table of one row, and two lines. -/
def namedItems : Items :=
  .cons (val (num (tk .rDoubleLiteral "1"))) com
  (.cons (val (id (ts .ident "bc"))) com
  (.cons (.named {} {} (id (ts .ident "k")) (ts .equal "=") (num (ts .rDoubleLiteral "2"))) com
  (.last (val (id (ts .ident "d"))))))

example : render (emit (lay false true false .expanded 0 (tableDoc (opts .arrow []) {} (tk .lParen "(") namedItems
      (fmtItems (opts .arrow []) { inArg := true } true namedItems) (tk .rParen ")")))) =
    tx "(\n\t1 , bc ,\n\tk = 2,\n\td\n)" := by decide +kernel

/-- `f(` with the row `100, 2,` and, after the line `# c`, the row `1, 3`. -/
def commentItems : Items :=
  .cons (val (num (tn .rDoubleLiteral "100"))) com
  (.cons (val (num (ts .rDoubleLiteral "2"))) com
  (.cons (.val { leading := [⟨tx "# c", 1, 1, false⟩] } (num ⟨.rDoubleLiteral,
    [⟨.newline, [10]⟩, ⟨.comment, tx "# c"⟩, ⟨.newline, [10]⟩], tx "1", []⟩)) com
  (.last (val (num (ts .rDoubleLiteral "3"))))))

/-- Its cells. -/
def commentDs : List ItemDoc := fmtItems (opts .arrow []) { inArg := true } true commentItems
def commentCells : List Cell := flatCells 1 false commentDs

theorem tidy_id (first : Bool) (n : Nat) (t : Token) : Tidy first (val (id t)) n :=
  ⟨.inr ⟨_, _, rfl⟩, ⟨rfl, rfl⟩, rfl, (fun h => by rcases h with h | h <;> cases h), .inl rfl⟩

theorem tidy_num (first : Bool) (n : Nat) (t : Token) (h : NumberTok .rDoubleValue t) :
    Tidy first (val (num t)) n :=
  ⟨.inr ⟨_, _, rfl⟩, ⟨rfl, rfl⟩, rfl, (fun _ => h), .inl rfl⟩

theorem tidy_items : AllTidy true (tableDs.takeWhile (fun x => !x.arg.isNamed)) :=
  ⟨tidy_num _ _ _ ⟨by decide, by decide, by decide, (fun h => by cases h)⟩, tidy_id _ _ _, tidy_id _ _ _,
   ⟨.inr ⟨_, _, rfl⟩, ⟨rfl, by decide⟩, rfl,
      ⟨(fun _ => ⟨by decide, .inr (by decide)⟩),
       (fun _ => ⟨by decide, by decide, by decide, (fun h => by cases h)⟩)⟩, .inl rfl⟩,
   tidy_id _ _ _,
   ⟨.inr ⟨_, _, rfl⟩, ⟨rfl, rfl⟩, rfl,
      (fun _ => ⟨by decide, by decide, by decide, (fun _ => ⟨tx "3", by decide⟩)⟩), .inl rfl⟩,
   tidy_id _ _ _, ⟨.inl ⟨_, rfl⟩, ⟨rfl, rfl⟩, rfl, trivial, .inl rfl⟩, tidy_id _ _ _, trivial⟩

end Ex

/-- The hypotheses of the theorems hold of the example. -/
example : Cells 1 false (tableDs.takeWhile (fun x => !x.arg.isNamed)) tableCells ∧
    (!(tableDs.dropWhile (fun x => !x.arg.isNamed)).isEmpty) = false ∧
    AllTidy true (tableDs.takeWhile (fun x => !x.arg.isNamed)) ∧
    (∀ c ∈ tableCells, ∀ t ∈ printedToks c.body, 0 < chars t.text) ∧
    (buildTable tableCells).rows.map List.length = [3, 2, 2, 2] :=
  ⟨by
    rw [show tableDs.takeWhile (fun x => !x.arg.isNamed) = tableDs from rfl]
    exact flatCells_cells _ _ _ (by decide +kernel), by decide +kernel, tidy_items, by decide +kernel,
   by decide +kernel⟩

/-- Its text. -/
example : tableText tableCells =
    tx "f(\n\t1499.99 , a   , bc ,\n\t  -9.5  , bcd ,\n\n\t   3L   , b   ,\n\t        , x\n)" := by
  decide +kernel

/-- C40 does not hold with a comment before a number: the padding of the number is printed before the
comment, so that the comment is not at the indentation of the table, and the number not in its column. -/
theorem C40_comment_misaligned :
    Cells 1 false (commentDs.takeWhile (fun x => !x.arg.isNamed)) commentCells ∧
    tableText commentCells = tx "f(\n\t100 , 2 ,\n\t  # c\n\t1 , 3\n)" :=
  ⟨by
    rw [show commentDs.takeWhile (fun x => !x.arg.isNamed) = commentDs from rfl]
    exact flatCells_cells _ _ _ (by decide +kernel), by decide +kernel⟩

end Verif.Format
