import Verif.Lemmas.FormatLayout
import Verif.Lemmas.TablePrint
import Verif.Lemmas.FormatSilent
import Verif.Lemmas.FormatEdges

/-!
# Tables: from the arguments to the cells
-/

namespace Verif.Format
open Verif.Syntax

/-! ## The padding is one of the permitted layouts -/

theorem cell_lays {i : Nat} {d : ItemDoc} {c : Cell} {cols : List ColumnInfo} {j : Nat} {x : List El}
    (h : IsCell i d c) (hx : cellEls cols j c = some x) : Lays false .expanded i (cellDoc d) x := by
  obtain ⟨-, -, hsep, hb⟩ := h
  have hbody : Lays false .expanded i
      (if d.arg.isNumeric then d.doc
       else leadingDoc d.arg.ann.leading ⊹ .cell d.fields ⊹ trailingDoc 0 d.arg.ann.trailing) c.body := by
    split at hb
    · rename_i hn
      rw [if_pos hn]
      exact hb.2
    · rename_i hn
      rw [if_neg hn]
      obtain ⟨a, y, b, m, he, ha, hy, hnl, hb, -⟩ := hb
      exact ⟨a, inlineSuffixes y ++ b, by simp [he], ha, _, b, rfl, ⟨y, m, hy, hnl, rfl⟩, hb⟩
  unfold cellEls at hx
  split at hx
  · cases hx
  · rename_i ci _
    dsimp only at hx
    cases hd : d.sep with
    | some s =>
      rw [hd] at hsep
      rw [show c.sep = some (outTok s) from hsep] at hx
      simp only [Option.some.injEq] at hx
      subst hx
      obtain ⟨n, hn⟩ : ∃ n, (if c.last = true then [] else padEls (ci.padding c.kind).2) = padEls n := by
        split
        · exact ⟨0, rfl⟩
        · exact ⟨_, rfl⟩
      rw [hn]
      unfold cellDoc
      rw [hd]
      exact ⟨padEls (ci.padding c.kind).1, c.body ++ (padEls n ++ ([.space, .tok (outTok s)] ++ [.space])), by simp, ⟨_, rfl⟩,
        c.body, _, rfl, hbody, padEls n, _, rfl, ⟨n, rfl⟩, [.space, .tok (outTok s)], [.space], rfl,
        ⟨[.space], _, rfl, rfl, rfl⟩, rfl⟩
    | none =>
      rw [hd] at hsep
      rw [show c.sep = none from hsep] at hx
      dsimp only at hx
      split at hx
      · cases hx
        unfold cellDoc
        rw [hd]
        exact ⟨padEls (ci.padding c.kind).1, c.body ++ ([] ++ ([] ++ [.space])), by simp, ⟨_, rfl⟩,
          c.body, _, rfl, hbody, [], _, rfl, ⟨0, rfl⟩, [], [.space], rfl, rfl, rfl⟩
      · cases hx

theorem cells_cons {i : Nat} {more : Bool} {ds : List ItemDoc} {c : Cell} {cs : List Cell}
    (h : Cells i more ds (c :: cs)) :
    ∃ d ds', ds = d :: ds' ∧ IsCell i d c ∧ c.last = (ds'.isEmpty && !more) ∧ Cells i more ds' cs := by
  cases ds with
  | nil => cases h
  | cons d ds =>
    obtain ⟨c', cs', he, h1, h2, h3⟩ := h
    cases he
    exact ⟨d, ds, rfl, h1, h2, h3⟩

theorem cells_nil {i : Nat} {more : Bool} {ds : List ItemDoc} (h : Cells i more ds []) : ds = [] := by
  cases ds with
  | nil => rfl
  | cons d ds =>
    obtain ⟨c', cs', he, -⟩ := h
    cases he

theorem rowTail_lays {i : Nat} {more : Bool} {cols : List ColumnInfo} (r : List Cell) :
    ∀ (j : Nat) (ds : List ItemDoc) (rest : List Cell) (a b : List El),
      Cells i more ds (r ++ rest) → (∀ c ∈ r, c.rowLines = 0) → rowEls cols j r = some a →
      (∀ ds', Cells i more ds' rest → Lays false .expanded i (tableRows false ds') b) →
      Lays false .expanded i (tableRows false ds) (a ++ b) := by
  induction r with
  | nil => intro j ds rest a b hC _ ha hb; cases ha; exact hb ds hC
  | cons c r ih =>
    intro j ds rest a b hC h0 ha hb
    obtain ⟨d, ds, rfl, hc, -, hC⟩ := cells_cons hC
    simp only [rowEls] at ha
    split at ha
    · rename_i p q hp hq
      cases ha
      have hl : d.rowLines = 0 := by rw [← hc.2.1]; exact h0 c (List.mem_cons_self ..)
      refine ⟨[], p ++ (q ++ b), by simp, by simp [hl, Lays], p, q ++ b, rfl, cell_lays hc hp, ?_⟩
      exact ih (j + 1) ds rest q b hC (fun c hc => h0 c (List.mem_cons_of_mem _ hc)) hq hb
    · cases ha

theorem moreRows_lays {i : Nat} {more : Bool} {cols : List ColumnInfo} (rs : List (List Cell)) :
    ∀ (ds : List ItemDoc) (b : List El), Cells i more ds rs.flatten → (∀ r ∈ rs, IsRow r) → Heads rs →
      moreRows cols i rs = some b → Lays false .expanded i (tableRows false ds) b := by
  induction rs with
  | nil => intro ds b hC _ _ hb; cases hb; rw [cells_nil hC]; rfl
  | cons r rs ih =>
    intro ds b hC hr hh hb
    simp only [moreRows] at hb
    split at hb
    · rename_i p q hp hq
      cases hb
      obtain ⟨hne, h0⟩ := hr r (List.mem_cons_self ..)
      cases r with
      | nil => exact absurd rfl hne
      | cons c r =>
        rw [List.flatten_cons, List.cons_append] at hC
        obtain ⟨d, ds, rfl, hc, -, hC⟩ := cells_cons hC
        simp only [rowEls] at hp
        split at hp
        · rename_i u v hu hv
          cases hp
          have hl : 0 < d.rowLines := by rw [← hc.2.1]; exact hh.1 c rfl
          refine ⟨[.nl (1 < c.lines) i], u ++ (v ++ q), by simp [rowBreak], ?_, u, v ++ q, rfl, cell_lays hc hu, ?_⟩
          · simp only [Bool.not_false, Bool.true_and, decide_eq_true_eq, hl, if_true, Lays]
            rw [hc.1]
            by_cases h : d.lines ≤ 1
            · have h' : ¬ 1 < d.lines := by omega
              simp [h, h', layLine]
            · have h' : 1 < d.lines := by omega
              simp [h, h', layLine]
          · exact rowTail_lays r 1 ds rs.flatten v q hC h0 hv
              fun ds' hC' => ih ds' q hC' (fun r hr' => hr r (List.mem_cons_of_mem _ hr')) hh.2 hq
        · cases hp
    · cases hb

/-- The instructions with the computed padding are a layout of the table. -/
theorem table_lays {i : Nat} {more : Bool} {ds : List ItemDoc} {cs : List Cell} {x : List El}
    (hC : Cells i more ds cs) (hx : tableEls i (buildTable cs) = some x) :
    Lays false .expanded i (tableRows true ds) x := by
  have h1 := buildTable_rows cs
  have h2 := buildTable_heads cs
  have h3 := buildTable_flatten cs
  unfold tableEls at hx
  cases hr : (buildTable cs).rows with
  | nil =>
    rw [hr] at hx h3
    cases hx
    subst h3
    rw [cells_nil hC]
    rfl
  | cons r rs =>
    rw [hr] at hx h1 h2 h3
    dsimp only at hx
    split at hx
    · rename_i p q hp hq
      cases hx
      obtain ⟨hne, h0⟩ := h1 r (List.mem_cons_self ..)
      cases r with
      | nil => exact absurd rfl hne
      | cons c r =>
        rw [List.flatten_cons, List.cons_append] at h3
        rw [← h3] at hC
        obtain ⟨d, ds, rfl, hc, -, hC⟩ := cells_cons hC
        simp only [rowEls] at hp
        split at hp
        · rename_i u v hu hv
          cases hp
          refine ⟨[], u ++ (v ++ q), by simp, rfl, u, v ++ q, rfl, cell_lays hc hu, ?_⟩
          exact rowTail_lays r 1 ds rs.flatten v q hC h0 hv
            fun ds' hC' => moreRows_lays rs ds' q hC' (fun r hr' => h1 r (List.mem_cons_of_mem _ hr')) h2 hq
        · cases hp
    · cases hx

/-! ## The instructions exist -/

/-- Only the last argument may lack a separator. -/
def Seps (more : Bool) : List ItemDoc → Prop
  | [] => True
  | d :: ds => ((ds ≠ [] ∨ more = true) → d.sep.isSome = true) ∧ Seps more ds

theorem cells_lasts {i : Nat} {more : Bool} (ds : List ItemDoc) :
    ∀ cs, Cells i more ds cs → Seps more ds →
      Lasts cs ∧ ∀ c ∈ cs, c.last = false → c.sep.isSome = true := by
  induction ds with
  | nil => intro cs h _; cases h; exact ⟨trivial, fun c hc => by cases hc⟩
  | cons d ds ih =>
    rintro cs ⟨c, cs, rfl, hc, hl, hC⟩ ⟨s1, s2⟩
    obtain ⟨i1, i2⟩ := ih cs hC s2
    refine ⟨⟨fun hne => ?_, i1⟩, ?_⟩
    · have : ds ≠ [] := by
        rintro rfl
        exact hne (by cases hC; rfl)
      rw [hl]
      cases ds with
      | nil => exact absurd rfl this
      | cons _ _ => rfl
    · intro e he hel
      rcases List.mem_cons.mp he with rfl | he
      · rw [hl] at hel
        rw [hc.2.2.1, Option.isSome_map]
        refine s1 ?_
        cases ds with
        | nil => right; simpa using hel
        | cons _ _ => left; simp
      · exact i2 e he hel

theorem cellEls_some {cols : List ColumnInfo} {j : Nat} {c : Cell} {ci : ColumnInfo}
    (h : cols[j]? = some ci) (hs : c.last = false → c.sep.isSome = true) :
    ∃ x, cellEls cols j c = some x := by
  unfold cellEls
  rw [h]
  dsimp only
  cases hsep : c.sep with
  | some s => exact ⟨_, rfl⟩
  | none =>
    cases hl : c.last with
    | true => exact ⟨_, rfl⟩
    | false => have := hs hl; rw [hsep] at this; cases this

theorem rowEls_some {cols : List ColumnInfo} (r : List Cell) : ∀ (j : Nat),
    (∀ (k : Nat) (c : Cell), r[k]? = some c → ∃ ci, cols[j + k]? = some ci ∧ Covers ci c.kind) →
    (∀ c ∈ r, c.last = false → c.sep.isSome = true) → ∃ x, rowEls cols j r = some x := by
  induction r with
  | nil => intro j _ _; exact ⟨_, rfl⟩
  | cons c r ih =>
    intro j hc hs
    obtain ⟨ci, h1, -⟩ := hc 0 c rfl
    obtain ⟨x, hx⟩ := cellEls_some (c := c) h1 (hs c (List.mem_cons_self ..))
    obtain ⟨y, hy⟩ := ih (j + 1) (fun k c h => by
      have := hc (k + 1) c (by simpa using h)
      rwa [show j + (k + 1) = j + 1 + k by omega] at this) (fun c h => hs c (List.mem_cons_of_mem _ h))
    simp only [Nat.add_zero] at hx
    exact ⟨x ++ y, by simp [rowEls, hx, hy]⟩

theorem moreRows_some {cols : List ColumnInfo} {i : Nat} (rs : List (List Cell))
    (hc : ∀ r ∈ rs, RowCovered cols r) (hs : ∀ r ∈ rs, ∀ c ∈ r, c.last = false → c.sep.isSome = true) :
    ∃ x, moreRows cols i rs = some x := by
  induction rs with
  | nil => exact ⟨_, rfl⟩
  | cons r rs ih =>
    obtain ⟨x, hx⟩ := rowEls_some r 0 (fun k c h => by
      have := hc r (List.mem_cons_self ..) k c h
      rwa [Nat.zero_add]) (hs r (List.mem_cons_self ..))
    obtain ⟨y, hy⟩ := ih (fun r h => hc r (List.mem_cons_of_mem _ h)) (fun r h => hs r (List.mem_cons_of_mem _ h))
    exact ⟨rowBreak i r ++ x ++ y, by simp [moreRows, hx, hy]⟩

theorem tableEls_some (i : Nat) {cs : List Cell} (hs : ∀ c ∈ cs, c.last = false → c.sep.isSome = true) :
    ∃ x, tableEls i (buildTable cs) = some x := by
  have h2 := buildTable_covered cs
  have h3 := buildTable_flatten cs
  have hs' : ∀ r ∈ (buildTable cs).rows, ∀ c ∈ r, c.last = false → c.sep.isSome = true := by
    intro r hr c hc
    exact hs c (by rw [← h3]; exact List.mem_flatten.mpr ⟨r, hr, hc⟩)
  unfold tableEls
  cases hr : (buildTable cs).rows with
  | nil => exact ⟨_, rfl⟩
  | cons r rs =>
    rw [hr] at h2 hs'
    obtain ⟨x, hx⟩ := rowEls_some r 0 (fun k c h => by
      have := h2 r (List.mem_cons_self ..) k c h
      rwa [Nat.zero_add]) (hs' r (List.mem_cons_self ..))
    obtain ⟨y, hy⟩ := moreRows_some (i := i) rs (fun r h => h2 r (List.mem_cons_of_mem _ h))
      (fun r h => hs' r (List.mem_cons_of_mem _ h))
    exact ⟨x ++ y, by simp [hx, hy]⟩

/-! ## Arguments without comments inside are neat -/

/-- A number as R writes it: an integer ends with `L`. -/
def NumberTok (k : Kind) (t : Token) : Prop :=
  t.kind ≠ .stringContent ∧ t.text ≠ [] ∧ (∀ b ∈ t.text, b < 128) ∧
  (k = .rIntegerValue → ∃ p, t.text = p ++ [76])

/-- A sign as R writes it. -/
def SignTok (t : Token) : Prop := t.kind ≠ .stringContent ∧ (t.text = [43] ∨ t.text = [45])

/-- Numbers and signs are as R writes them. -/
def Arg.lexed (x : Arg) : Prop :=
  match x.value with
  | some (.atom _ k t) => k = .rIntegerValue ∨ k = .rDoubleValue → NumberTok k t
  | some (.unary _ op (.atom _ k t)) =>
    (op.kind = .plus ∨ op.kind = .minus → SignTok op) ∧
    (k = .rIntegerValue ∨ k = .rDoubleValue → NumberTok k t)
  | _ => True

theorem outTok_written {t : Token} (h : t.kind ≠ .stringContent) : (outTok t).text = t.text := by
  simp [outTok, h]

theorem findIdx_point {t : List Byte} :
    match t.findIdx? (· == 46) with
    | some pos => ∃ p q, t = p ++ 46 :: q ∧ p.length = pos ∧ 46 ∉ p
    | none => 46 ∉ t := by
  induction t with
  | nil => simp
  | cons b t ih =>
    rw [List.findIdx?_cons]
    by_cases hb : b = 46
    · subst hb
      simp only [beq_self_eq_true, if_true]
      exact ⟨[], t, rfl, rfl, by simp⟩
    · have : (b == 46) = false := by simpa using hb
      simp only [this]
      cases hf : t.findIdx? (· == 46) with
      | none =>
        rw [hf] at ih
        simp only [Bool.false_eq_true, if_false, Option.map_none]
        simp only [List.mem_cons, not_or]
        exact ⟨fun h => hb h.symm, ih⟩
      | some pos =>
        rw [hf] at ih
        obtain ⟨p, q, rfl, h1, h2⟩ := ih
        simp only [Bool.false_eq_true, if_false, Option.map_some]
        refine ⟨b :: p, q, rfl, by simp [h1], ?_⟩
        simp only [List.mem_cons, not_or]
        exact ⟨fun h => hb h.symm, h2⟩

/-- The width of a number with a sign of `g.length` characters. -/
theorem number_ok {k : Kind} {t : Token} (h : NumberTok k t) (g : List Byte) (hg : ∀ b ∈ g, b < 128)
    (hg' : 46 ∉ g) (hk : k = .rIntegerValue ∨ k = .rDoubleValue) :
    ∃ i f, numberKind g.length (k == .rIntegerValue) t.text = .numeric i f ∧
      (∀ b ∈ g ++ t.text, b < 128) ∧
      ∃ p q, g ++ t.text = p ++ q ∧ Point p q ∧ p.length = i ∧ q.length = (f.elim 0 (· + 1)) := by
  obtain ⟨-, hne, hasc, hint⟩ := h
  have hall : ∀ b ∈ g ++ t.text, b < 128 := by
    intro b hb
    rcases List.mem_append.mp hb with hb | hb
    · exact hg b hb
    · exact hasc b hb
  rcases hk with rfl | rfl
  · obtain ⟨p, hp⟩ := hint rfl
    refine ⟨_, _, rfl, hall, g ++ p, [76], by rw [hp]; simp, .inr (.inl rfl), ?_, rfl⟩
    rw [hp]; simp
  · have hf := findIdx_point (t := t.text)
    unfold numberKind
    simp only [show ((Kind.rDoubleValue == Kind.rIntegerValue) = false) from rfl, Bool.false_eq_true, if_false]
    cases hp : t.text.findIdx? (· == 46) with
    | none =>
      rw [hp] at hf
      refine ⟨_, _, rfl, hall, g ++ t.text, [], by simp, .inl ⟨rfl, ?_⟩, by simp, rfl⟩
      simp only [List.mem_append, not_or]
      exact ⟨hg', hf⟩
    | some pos =>
      rw [hp] at hf
      obtain ⟨p, q, ht, h1, h2⟩ := hf
      refine ⟨_, _, rfl, hall, g ++ p, 46 :: q, by rw [ht]; simp, .inr (.inr ⟨rfl, ?_⟩), by simp [h1], ?_⟩
      · simp only [List.mem_append, not_or]
        exact ⟨hg', h2⟩
      · rw [ht]; simp [← h1]

/-- An entry of an argument list as it is formatted. -/
def IsItem (o : Opts) (vcx : Cx) (d : ItemDoc) : Prop :=
  d.doc = argDoc o true d.arg (fmtArg o vcx d.arg) ∧ d.fields = fmtArg o vcx d.arg

theorem ann_nil {a : Ann} (h : a.all = []) : a.leading = [] ∧ a.dangling = [] ∧ a.trailing = [] :=
  Ann.all_nil h

theorem lays_trailing_suffix {i : Nat} {m : Mode} {ns : Bool} (cs : List Comment) : ∀ (n : Nat) (x : List El),
    Lays ns m i (trailingDoc n cs) x → ∀ e ∈ x, ∃ l k t, e = .suffix l k t := by
  induction cs with
  | nil => intro n x h; cases h; intro e he; cases he
  | cons c cs ih =>
    rintro n x ⟨a, b, rfl, ha, hb⟩ e he
    cases ha
    rcases List.mem_cons.mp he with rfl | he
    · exact ⟨_, _, _, rfl⟩
    · exact ih _ b hb e he

theorem lays_leading_lead {i : Nat} {m : Mode} {ns : Bool} (cs : List Comment) : ∀ (x : List El),
    Lays ns m i (leadingDoc cs) x → Lead i x := by
  induction cs with
  | nil => intro x h; cases h; exact .nil
  | cons c cs ih =>
    rintro x ⟨a, b, rfl, ha, u, v, rfl, hu, hv⟩
    cases ha
    have hu : u = layLine ns m i (if c.after ≤ 1 then .hard else .empty) := hu
    by_cases h : c.after ≤ 1
    · rw [if_pos h] at hu
      subst hu
      exact .cons _ _ (ih v hv)
    · rw [if_neg h] at hu
      subst hu
      exact .cons _ _ (ih v hv)

theorem lays_node_plain {a : Ann} {d : Doc} {dg : Doc} (ha : a.leading = []) (hd : dg = .nil)
    {ns : Bool} {m : Mode} {i : Nat} {x : List El} (h : Lays ns m i (nodeDoc a d dg) x) :
    ∃ y z, x = y ++ z ∧ Lays ns m i d y ∧ ∀ e ∈ z, ∃ l k t, e = .suffix l k t := by
  subst hd
  obtain ⟨p, q, rfl, hp, y, z, rfl, hy, u, v, rfl, hu, hv⟩ := h
  rw [ha] at hp
  cases hp
  cases hu
  exact ⟨y, v, by simp, hy, lays_trailing_suffix _ _ _ hv⟩

theorem hasDirective_nil {o : Opts} {dir : Bool} {a : Ann} {d : Verif.Directive.Directive} (h : a.leading = []) :
    hasDirective o dir a d = false := by
  simp [hasDirective, h]

theorem lays_atom {o : Opts} {cx : Cx} {a : Ann} {k : Kind} {t : Token} (ha : a.all = [])
    {ns : Bool} {m : Mode} {i : Nat} {x : List El} (h : Lays ns m i (fmt o cx (.atom a k t)) x) :
    x = [.tok (outTok t)] := by
  obtain ⟨h1, h2, h3⟩ := ann_nil ha
  rw [fmt, wrapDoc] at h
  have hc : (cx.chain && (Expr.atom a k t).isChain) = false := by simp [Expr.isChain]
  have hs : suppressed o cx (.atom a k t) = false := hasDirective_nil h1
  rw [hc, hs] at h
  simp only [Bool.false_eq_true, if_false, Expr.isBraced] at h
  obtain ⟨p, q, rfl, hp, y, z, rfl, hy, u, v, rfl, hu, hv⟩ := h
  rw [show (Expr.atom a k t).ann = a from rfl] at *
  rw [h1] at hp
  rw [h2] at hu
  rw [h3] at hv
  cases hp
  cases hy
  cases hu
  cases hv
  rfl

theorem number_fin (k : Kind) (t : Token) (g : List Byte) (y : List El) (h1 : NumberTok k t)
    (h2 : ∀ b ∈ g, b < 128) (h3 : 46 ∉ g) (h4 : k = .rIntegerValue ∨ k = .rDoubleValue)
    (hy : render y = g ++ t.text) (h5 : y ≠ []) (h6 : ∀ e ∈ y, ∃ t, e = .tok t) :
    KindOk y (numberKind g.length (k == .rIntegerValue) t.text) ∧
      0 < (numberKind g.length (k == .rIntegerValue) t.text).width := by
  obtain ⟨i, f, he, ha, p, q, hpq, hP, hi, hf⟩ := number_ok h1 g h2 h3 h4
  rw [he]
  refine ⟨⟨h5, h6, by rw [hy]; exact ha, p, q, by rw [hy, hpq], hP, hi, hf⟩, ?_⟩
  have hlen : (g ++ t.text).length = i + (f.elim 0 (· + 1)) := by rw [hpq, List.length_append, hi, hf]
  have hpos : 0 < t.text.length := List.length_pos_iff.mpr h1.2.1
  rw [List.length_append] at hlen
  cases f <;> simp [ArgKind.width] at hlen ⊢ <;> omega

/-- Numbers. -/
theorem numeric_cases {a : Ann} {e : Expr} (h : (Arg.val a e).isNumeric = true) :
    (∃ b k t, e = .atom b k t ∧ (k = .rIntegerValue ∨ k = .rDoubleValue)) ∨
    (∃ b op c k t, e = .unary b op (.atom c k t) ∧ (op.kind = .plus ∨ op.kind = .minus) ∧
      (k = .rIntegerValue ∨ k = .rDoubleValue)) := by
  unfold Arg.isNumeric Arg.value at h
  dsimp only at h
  split at h
  · rename_i b k t he
    cases he
    exact .inl ⟨_, _, _, rfl, by simpa using h⟩
  · rename_i b op c k t he
    cases he
    simp only [Bool.and_eq_true, Bool.or_eq_true, beq_iff_eq] at h
    exact .inr ⟨_, _, _, _, _, rfl, h.1, h.2⟩
  · cases h

theorem parseKind_atom (a b : Ann) (k : Kind) (t : Token) (x : List Byte)
    (h : k = .rIntegerValue ∨ k = .rDoubleValue) :
    parseKind (.val a (.atom b k t)) x = numberKind 0 (k == .rIntegerValue) t.text := by
  rcases h with rfl | rfl <;> rfl

theorem parseKind_unary (a b c : Ann) (op : Token) (k : Kind) (t : Token) (x : List Byte)
    (ho : op.kind = .plus ∨ op.kind = .minus) (h : k = .rIntegerValue ∨ k = .rDoubleValue) :
    parseKind (.val a (.unary b op (.atom c k t))) x = numberKind 1 (k == .rIntegerValue) t.text := by
  rcases h with rfl | rfl <;> exact if_pos ho

theorem parseKind_other {x : Arg} (h : x.isNumeric = false) (t : List Byte) :
    parseKind x t = .other t := by
  unfold parseKind
  unfold Arg.isNumeric at h
  split
  · rename_i he; rw [he] at h; cases h
  · rename_i he; rw [he] at h; cases h
  · rename_i op _ _ he
    rw [he] at h
    simp only [beq_self_eq_true, Bool.true_or, Bool.and_true, Bool.or_eq_false_iff, beq_eq_false_iff_ne] at h
    rw [if_neg (by rintro (h' | h') <;> simp_all)]
  · rename_i op _ _ he
    rw [he] at h
    simp only [beq_self_eq_true, Bool.or_true, Bool.and_true, Bool.or_eq_false_iff, beq_eq_false_iff_ne] at h
    rw [if_neg (by rintro (h' | h') <;> simp_all)]
  · rfl

/-- The layout of a number without comments inside. -/
theorem lays_number {o : Opts} {vcx : Cx} {a : Ann} {e : Expr} (hq : (Arg.val a e).Quiet)
    (hn : (Arg.val a e).isNumeric = true)
    {ns : Bool} {m : Mode} {i : Nat} {y : List El} (h : Lays ns m i (fmt o vcx e) y)
    (hl : (Arg.val a e).lexed) :
    OneLine y ∧ KindOk y (parseKind (.val a e) []) ∧ 0 < (parseKind (.val a e) []).width := by
  have hc : e.comments = [] := hq.1
  rcases numeric_cases hn with ⟨b, k, t, rfl, hk⟩ | ⟨b, op, c, k, t, rfl, hop, hk⟩
  · have hb : b.all = [] := by simpa [Expr.comments] using hc
    have hy := lays_atom hb h
    subst hy
    have hN : NumberTok k t := hl hk
    have := number_fin k t [] [.tok (outTok t)] hN (by simp) (by simp) hk
      (by simp [render, outTok_written hN.1]) (by simp) (by simp)
    rw [parseKind_atom _ _ _ _ _ hk]
    exact ⟨⟨rfl, .inr ⟨⟨_, [], rfl⟩, ⟨_, [], rfl⟩⟩⟩, this⟩
  · have hbc : b.all = [] ∧ c.all = [] := by simpa [Expr.comments] using hc
    obtain ⟨h1, h2, h3⟩ := ann_nil hbc.1
    obtain ⟨hS, hN⟩ := hl
    have hS := hS hop
    have hN := hN hk
    rw [fmt, wrapDoc] at h
    have hch : (vcx.chain && (Expr.unary b op (.atom c k t)).isChain) = false := by simp [Expr.isChain]
    have hs : suppressed o vcx (.unary b op (.atom c k t)) = false := hasDirective_nil h1
    rw [hch, hs] at h
    simp only [Bool.false_eq_true, if_false, Expr.isBraced] at h
    obtain ⟨p, q, rfl, hp, y, z, rfl, hy, u, v, rfl, hu, hv⟩ := h
    rw [show (Expr.unary b op (.atom c k t)).ann = b from rfl] at *
    rw [h1] at hp
    rw [h2] at hu
    rw [h3] at hv
    cases hp
    cases hu
    cases hv
    obtain ⟨y1, y2, rfl, hy1, y3, y4, rfl, hy3, hy4⟩ := hy
    cases hy1
    have ht : (op.kind == Kind.tilde) = false := by rcases hop with h | h <;> rw [h] <;> rfl
    rw [ht] at hy3
    cases hy3
    have hca : (Expr.atom c k t).ann.any = false := by
      obtain ⟨c1, c2, c3⟩ := ann_nil hbc.2
      simp [Expr.ann, Ann.any, c1, c2, c3]
    rw [hca] at hy4
    simp only [Bool.false_eq_true, if_false] at hy4
    have hy := lays_atom hbc.2 hy4
    subst hy
    have := number_fin k t op.text [.tok (outTok op), .tok (outTok t)] hN
      (by rcases hS.2 with h | h <;> rw [h] <;> decide) (by rcases hS.2 with h | h <;> rw [h] <;> decide) hk
      (by simp [render, outTok_written hN.1, outTok_written hS.1]) (by simp) (by simp)
    rw [parseKind_unary _ _ _ _ _ _ _ hop hk]
    rw [show op.text.length = 1 by rcases hS.2 with h | h <;> rw [h] <;> rfl] at this
    exact ⟨⟨rfl, .inr ⟨⟨_, _, rfl⟩, ⟨_, [.tok (outTok op)], rfl⟩⟩⟩, this⟩

theorem all_inline {x : List El} (h1 : ∀ e ∈ x, e.isComment = false) (h2 : x.any El.isNl = false) :
    x.all El.isInline = true := by
  rw [List.all_eq_true]
  intro e he
  have h1 := h1 e he
  have h2 : e.isNl = false := by
    cases h : e.isNl with
    | false => rfl
    | true => rw [List.any_eq_true.mpr ⟨e, he, h⟩] at h2; cases h2
  cases e <;> simp_all [El.isComment, El.isNl, El.isInline]

theorem inlineSuffixes_inline {x : List El} (h : x.all El.isInline = true) : inlineSuffixes x = x := by
  have h1 : x.filter (fun e => match e with | .suffix .. => false | _ => true) = x := by
    refine List.filter_eq_self.mpr fun e he => ?_
    have := List.all_eq_true.mp h e he
    cases e <;> simp_all [El.isInline]
  have h2 : x.flatMap (fun e => match e with | .suffix _ _ t => [El.space, El.comment t] | _ => []) = [] := by
    refine List.flatMap_eq_nil_iff.mpr fun e he => ?_
    have := List.all_eq_true.mp h e he
    cases e <;> simp_all [El.isInline]
  exact (congr (congrArg (· ++ ·) h1) h2).trans (List.append_nil x)

/-- Text on one line without comments. -/
theorem oneLine_fmt {o : Opts} {cx : Cx} {e : Expr} {ns : Bool} {m : Mode} {i : Nat} {x : List El}
    (h : Lays ns m i (fmt o cx e) x) (hx : x.all El.isInline = true) : OneLine x := by
  refine ⟨hx, .inr ?_⟩
  obtain ⟨a, r, h1, ha⟩ := fmt_begins o e cx _ _ _ _ h
  obtain ⟨p, b, q, h2, hb, hq⟩ := fmt_ends o e cx _ _ _ _ h
  have hmem := List.all_eq_true.mp hx
  constructor
  · have := hmem a (by rw [h1]; simp)
    cases a with
    | tok t => exact ⟨t, r, h1⟩
    | _ => simp_all [El.isInline, El.isText]
  · have hq0 : q = [] := by
      cases q with
      | nil => rfl
      | cons c q =>
        have h3 := hmem c (by rw [h2]; simp)
        have h4 := hq c (by simp)
        cases c <;> simp_all [El.isInline, El.isTail]
    subst hq0
    have := hmem b (by rw [h2]; simp)
    cases b with
    | tok t => exact ⟨t, p, h2⟩
    | _ => simp_all [El.isInline, El.isText]

theorem chars_pos_emit {x : List El} (h : OneLine x) (hne : x ≠ [])
    (ht : ∀ t ∈ printedToks x, 0 < chars t.text) : 0 < chars (render (emit x)) := by
  obtain ⟨hi, hx | ⟨⟨t, r, hr⟩, -⟩⟩ := h
  · exact absurd hx hne
  · have h1 : printedToks (emit x) = printedToks x := printedToks_emit x
    have h2 := ht t (by rw [hr]; simp [printedToks])
    have hm : t ∈ printedToks (emit x) := by rw [h1, hr]; simp [printedToks]
    have hsub : ∀ (y : List El) (t : Tok), t ∈ printedToks y → chars t.text ≤ chars (render y) := by
      intro y
      induction y with
      | nil => intro t ht; cases ht
      | cons e y ih =>
        intro t ht
        cases e <;> simp only [printedToks, render, List.mem_cons, chars_append] at ht ⊢
        case tok u =>
          rcases ht with rfl | ht
          · omega
          · have := ih t ht; omega
        all_goals
          have := ih t ht
          simp only [chars, List.countP_cons] at this ⊢
          omega
    have := hsub _ t hm
    omega

/-- A cell whose argument has no comments inside. -/
theorem neat_of {o : Opts} {vcx : Cx} {i : Nat} {head : Bool} {d : ItemDoc} {c : Cell}
    (hi : IsItem o vcx d) (hc : IsCell i d c)
    (ha : (∃ a, d.arg = .hole a) ∨ ∃ a e, d.arg = .val a e) (hq : d.arg.Quiet)
    (hdang : d.arg.ann.dangling = [])
    (hlead : d.arg.ann.leading = [] ∨ (head = true ∧ d.arg.isNumeric = false)) (hlex : d.arg.lexed)
    (hne : ∀ t ∈ printedToks c.body, 0 < chars t.text) : NeatCell i head c := by
  obtain ⟨-, -, -, hb⟩ := hc
  cases hn : d.arg.isNumeric with
  | true =>
    rw [hn] at hb
    simp only [if_true] at hb
    obtain ⟨hk, hl⟩ := hb
    have hl0 : d.arg.ann.leading = [] := by
      rcases hlead with h | h
      · exact h
      · rw [hn] at h; cases h.2
    rw [hi.1, argDoc, hasDirective_nil hl0] at hl
    simp only [Bool.false_eq_true, if_false] at hl
    obtain ⟨y, z, hyz, hy, hz⟩ := lays_node_plain hl0 (by rw [hdang]; rfl) hl
    rcases ha with ⟨a, he⟩ | ⟨a, e, he⟩
    · rw [he] at hn; cases hn
    · rw [he] at hy hn hq hlex hk
      have hy : Lays false .expanded i (fmt o vcx e) y := by rw [fmtArg] at hy; exact hy
      obtain ⟨h1, h2, h3⟩ := lays_number hq hn hy hlex
      rw [← hk] at h2 h3
      exact ⟨[], y, z, by simpa using hyz, .nil, fun h => absurd rfl h, hz, h1, fun _ => h3, h2⟩
  | false =>
    rw [hn] at hb
    simp only [Bool.false_eq_true, if_false] at hb
    obtain ⟨a, x, b, m, he, h1, h2, h3, h4, hk⟩ := hb
    rw [parseKind_other hn] at hk
    rw [hi.2] at h2
    have hx := all_inline (fmtArg_silent o vcx hq _ _ _ _ h2) h3
    have hnum : c.isNumber = false := by simp [Cell.isNumber, hk]
    rw [inlineSuffixes_inline hx] at he
    have hone : OneLine x := by
      rcases ha with ⟨a, he⟩ | ⟨a, e, he⟩
      · rw [he, fmtArg] at h2
        cases h2
        exact ⟨rfl, .inl rfl⟩
      · rw [he, fmtArg] at h2
        exact oneLine_fmt h2 hx
    refine ⟨a, x, b, he, lays_leading_lead _ _ h1, ?_, lays_trailing_suffix _ _ _ h4, hone, ?_, ?_⟩
    · intro hane
      rcases hlead with h | h
      · rw [h] at h1; cases h1; exact absurd rfl hane
      · exact ⟨h.1, hnum⟩
    · intro hx0
      rw [hk]
      refine chars_pos_emit hone hx0 fun t ht => hne t ?_
      rw [he, printedToks_append, printedToks_append]
      simp [ht]
    · rw [hk]
      exact rfl

/-! ## All cells of a call -/

/-- An entry of a table without comments inside, as R writes it; comments before it are at the beginning
of a row and not before a number. -/
def Tidy (first : Bool) (x : Arg) (rowLines : Nat) : Prop :=
  ((∃ a, x = .hole a) ∨ ∃ a e, x = .val a e) ∧ x.Quiet ∧ x.ann.dangling = [] ∧ x.lexed ∧
  (x.ann.leading = [] ∨ ((first = true ∨ 0 < rowLines) ∧ x.isNumeric = false))

/-- All entries are tidy. -/
def AllTidy (first : Bool) : List ItemDoc → Prop
  | [] => True
  | d :: ds => Tidy first d.arg d.rowLines ∧ AllTidy false ds

theorem neat_tail {o : Opts} {vcx : Cx} {i : Nat} {more : Bool} (ds : List ItemDoc) :
    ∀ (cs : List Cell) (first : Bool), (∀ d ∈ ds, IsItem o vcx d) → AllTidy first ds → Cells i more ds cs →
      (∀ c ∈ cs, ∀ t ∈ printedToks c.body, 0 < chars t.text) →
      ∀ (k : Nat) (c : Cell), cs[k]? = some c →
        NeatCell i ((first && k == 0) || decide (0 < c.rowLines)) c := by
  induction ds with
  | nil => intro cs first _ _ hC _ k c hk; cases hC; cases hk
  | cons d ds ih =>
    rintro cs first hI ⟨⟨t1, t2, t3, t4, t5⟩, hT⟩ ⟨c0, cs, rfl, hc, -, hC⟩ hne k c hk
    cases k with
    | zero =>
      cases hk
      refine neat_of (hI d (List.mem_cons_self ..)) hc t1 t2 t3 ?_ t4 (hne _ (List.mem_cons_self ..))
      rcases t5 with h | ⟨h, h'⟩
      · exact .inl h
      · refine .inr ⟨?_, h'⟩
        rcases h with h | h
        · simp [h]
        · simp [hc.2.1, h]
    | succ k =>
      have := ih cs false (fun d hd => hI d (List.mem_cons_of_mem _ hd)) hT hC
        (fun c hc => hne c (List.mem_cons_of_mem _ hc)) k c (by simpa using hk)
      simpa using this

theorem neatRow_of {i : Nat} {first : Bool} {r : List Cell} (hr : IsRow r)
    (hh : first = true ∨ ∀ c ∈ r.head?, 0 < c.rowLines)
    (h : ∀ (k : Nat) (c : Cell), r[k]? = some c → NeatCell i ((first && k == 0) || decide (0 < c.rowLines)) c) :
    NeatRow i r := by
  cases r with
  | nil => exact absurd rfl hr.1
  | cons c r =>
    refine ⟨?_, ?_⟩
    · have := h 0 c rfl
      rcases hh with hh | hh
      · rw [hh] at this; simpa using this
      · have h0 := hh c rfl
        simpa [h0] using this
    · intro c' hc'
      obtain ⟨k, hk⟩ := List.mem_iff_getElem?.mp hc'
      have := h (k + 1) c' (by simpa using hk)
      simpa [hr.2 c' hc'] using this

theorem neatRows_of {i : Nat} (rs : List (List Cell)) : ∀ (first : Bool), (∀ r ∈ rs, IsRow r) →
    (if first then Heads rs.tail else Heads rs) →
    (∀ (k : Nat) (c : Cell), rs.flatten[k]? = some c →
      NeatCell i ((first && k == 0) || decide (0 < c.rowLines)) c) → ∀ r ∈ rs, NeatRow i r := by
  induction rs with
  | nil => intro first _ _ _ r hr; cases hr
  | cons r rs ih =>
    intro first hR hH hN r' hr'
    have hhead : first = true ∨ ∀ c ∈ r.head?, 0 < c.rowLines := by
      cases first with
      | true => exact .inl rfl
      | false => exact .inr hH.1
    have htail : Heads rs := by
      cases first with
      | true => exact hH
      | false => exact hH.2
    have hrow := hR r (List.mem_cons_self ..)
    rcases List.mem_cons.mp hr' with rfl | hr'
    · refine neatRow_of hrow hhead fun k c hk => hN k c ?_
      rw [List.flatten_cons, List.getElem?_append_left]
      · exact hk
      · exact (List.getElem?_eq_some_iff.mp hk).1
    · refine ih false (fun r h => hR r (List.mem_cons_of_mem _ h)) htail (fun k c hk => ?_) r' hr'
      have := hN (r.length + k) c (by rw [List.flatten_cons, List.getElem?_append_right (by omega)]; simpa using hk)
      have hl : r.length ≠ 0 := by simpa using hrow.1
      have h0 : (r.length + k == 0) = false := by simp; intro h; exact absurd h hrow.1
      rw [h0] at this
      simpa using this

/-- The cells of tidy entries are neat. -/
theorem neat_rows {o : Opts} {vcx : Cx} {i : Nat} {more : Bool} {ds : List ItemDoc} {cs : List Cell}
    (hI : ∀ d ∈ ds, IsItem o vcx d) (hT : AllTidy true ds) (hC : Cells i more ds cs)
    (hne : ∀ c ∈ cs, ∀ t ∈ printedToks c.body, 0 < chars t.text) :
    ∀ r ∈ (buildTable cs).rows, NeatRow i r := by
  refine neatRows_of _ true (buildTable_rows cs) (buildTable_heads cs) ?_
  rw [buildTable_flatten]
  exact neat_tail ds cs true hI hT hC hne

theorem items_isItem (o : Opts) (vcx : Cx) : ∀ (xs : Items), ∀ d ∈ fmtItems o vcx true xs, IsItem o vcx d
  | .nil => by intro d hd; cases hd
  | .last x => by
    intro d hd
    rw [fmtItems] at hd
    cases List.mem_singleton.mp hd
    exact ⟨rfl, rfl⟩
  | .cons x s xs => by
    intro d hd
    rw [fmtItems] at hd
    rcases List.mem_cons.mp hd with rfl | hd
    · exact ⟨rfl, rfl⟩
    · exact items_isItem o vcx xs d hd

/-- Only the last argument of a call has no separator. -/
theorem items_seps (o : Opts) (vcx : Cx) (p : ItemDoc → Bool) : ∀ (xs : Items),
    Seps (!((fmtItems o vcx true xs).dropWhile p).isEmpty) ((fmtItems o vcx true xs).takeWhile p)
  | .nil => trivial
  | .last x => by
    rw [fmtItems]
    simp only [List.takeWhile_cons, List.dropWhile_cons, List.takeWhile_nil, List.dropWhile_nil]
    split
    · exact ⟨(fun h => by simp at h), trivial⟩
    · trivial
  | .cons x s xs => by
    have ih := items_seps o vcx p xs
    rw [fmtItems]
    simp only [List.takeWhile_cons, List.dropWhile_cons]
    split
    · exact ⟨(fun _ => rfl), ih⟩
    · trivial

/-! ## One layout of the cells, for examples -/

/-- The cell with everything on one line. -/
def flatCell (i : Nat) (d : ItemDoc) (last : Bool) : Cell :=
  if d.arg.isNumeric then
    ⟨parseKind d.arg [], lay true false false .expanded i d.doc, d.lines, d.rowLines, d.sep.map outTok, last⟩
  else
    let x := lay true false true .flat 0 d.fields
    ⟨parseKind d.arg (render (emit x)),
      lay true false false .expanded i (leadingDoc d.arg.ann.leading) ++ inlineSuffixes x ++
        lay true false false .expanded i (trailingDoc 0 d.arg.ann.trailing),
      d.lines, d.rowLines, d.sep.map outTok, last⟩

/-- The cells on one line each. -/
def flatCells (i : Nat) (more : Bool) : List ItemDoc → List Cell
  | [] => []
  | d :: ds => flatCell i d (ds.isEmpty && !more) :: flatCells i more ds

/-- `flatCell` is a cell. -/
def flatFine (i : Nat) (d : ItemDoc) : Bool :=
  if d.arg.isNumeric then fine true false false .expanded i d.doc
  else
    fine true false true .flat 0 d.fields &&
    !(lay true false true .flat 0 d.fields).any El.isNl &&
    fine true false false .expanded i (leadingDoc d.arg.ann.leading) &&
    fine true false false .expanded i (trailingDoc 0 d.arg.ann.trailing)

theorem flatCells_cells (i : Nat) (more : Bool) (ds : List ItemDoc) (h : ds.all (flatFine i) = true) :
    Cells i more ds (flatCells i more ds) := by
  induction ds with
  | nil => rfl
  | cons d ds ih =>
    simp only [List.all_cons, Bool.and_eq_true] at h
    refine ⟨_, _, rfl, ?_, ?_, ih h.2⟩
    · have h := h.1
      unfold flatFine at h
      unfold flatCell IsCell
      split at h
      · rename_i hn
        rw [if_pos hn, if_pos hn]
        exact ⟨rfl, rfl, rfl, rfl, lay_lays _ _ _ _ _ _ h⟩
      · rename_i hn
        rw [if_neg hn, if_neg hn]
        simp only [Bool.and_eq_true, Bool.not_eq_true'] at h
        exact ⟨rfl, rfl, rfl, _, _, _, _, rfl, lay_lays _ _ _ _ _ _ h.1.2, lay_lays _ _ _ _ _ _ h.1.1.1,
          h.1.1.2, lay_lays _ _ _ _ _ _ h.2, rfl⟩
    · unfold flatCell; split <;> rfl

end Verif.Format
