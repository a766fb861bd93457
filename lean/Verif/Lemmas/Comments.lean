import Verif.Spec.Comments
import Verif.Lemmas.FormatEmit
import Verif.Lemmas.FormatSilent

/-!
# What comments a document prints
-/

namespace Verif.Format
open Verif.Syntax

/-- Every layout of the document prints the comments `cs`. -/
def Coms (d : Doc) (cs : List (List Byte)) : Prop :=
  ∀ ns m i x, Lays ns m i d x → (printedComments x).Perm cs

/-- Rearranges lists of comments. -/
macro "perm_cs" : tactic => `(tactic| (
  rw [List.perm_iff_count]; intro t
  simp only [texts, Ann.all, List.map_append, List.count_append, List.count_nil, List.map_nil,
    List.append_nil, List.nil_append]
  try omega))

namespace Coms
variable {a b d : Doc} {ca cb c c' : List (List Byte)}

theorem congr (h : Coms d c) (hp : c.Perm c') : Coms d c' :=
  fun ns m i x hx => (h ns m i x hx).trans hp

theorem cat (ha : Coms a ca) (hb : Coms b cb) : Coms (a ⊹ b) (ca ++ cb) := by
  rintro ns m i _ ⟨x, y, rfl, hx, hy⟩
  rw [printedComments_append]
  exact (ha _ _ _ _ hx).append (hb _ _ _ _ hy)

theorem alt (ha : Coms a c) (hb : Coms b c) : Coms (.alt a b) c := by
  rintro ns m i x (hx | hx)
  · exact ha _ _ _ _ hx
  · exact hb _ _ _ _ hx

theorem nil : Coms .nil [] := by rintro ns m i x rfl; exact .refl _
theorem tok (t : Tok) : Coms (.tok t) [] := by rintro ns m i x rfl; exact .refl _
theorem tokDoc (t : Token) : Coms (tokDoc t) [] := tok _
theorem space : Coms .space [] := by rintro ns m i x rfl; exact .refl _
theorem rnl : Coms .rnl [] := by rintro ns m i x rfl; exact .refl _
theorem comment (t : List Byte) : Coms (.comment t) [t] := by
  rintro ns m i x rfl; exact .refl _
theorem suffix (l : Option Bool) (t : List Byte) : Coms (.suffix l t) [t] := by
  rintro ns m i x rfl; exact .refl _
theorem pad : Coms .pad [] := by
  rintro ns m i x ⟨n, rfl⟩
  unfold padEls
  split <;> exact .refl _
theorem line (l : Line) : Coms (.line l) [] := by
  intro ns m i x hx
  have hx : x = layLine ns m i l := hx
  subst hx
  cases l <;> simp only [layLine] <;> (try split) <;> exact .refl _
theorem indent (h : Coms d c) : Coms (.indent d) c := fun _ _ _ _ hx => h _ _ _ _ hx
theorem group (h : Coms d c) {e : Bool} : Coms (.group e d) c := by
  rintro ns m i x ⟨m', -, hx⟩
  exact h _ _ _ _ hx
theorem ifBreaks (h : Coms d []) : Coms (.ifBreaks d) [] := by
  rintro ns m i x (⟨-, hx⟩ | ⟨-, rfl⟩)
  · exact h _ _ _ _ hx
  · exact .refl _
theorem noSoft (h : Coms d c) : Coms (.noSoft d) c := by
  rintro ns m i x ⟨m', hx, -⟩
  exact h _ _ _ _ hx

theorem inline_perm (x : List El) : (printedComments (inlineSuffixes x)).Perm (printedComments x) := by
  unfold inlineSuffixes
  rw [printedComments_append]
  induction x with
  | nil => exact .refl _
  | cons e x ih =>
    cases e with
    | suffix l i t =>
      simp only [List.filter_cons, List.flatMap_cons, printedComments_append, printedComments,
        List.cons_append, List.nil_append]
      exact List.perm_middle.trans (ih.cons t)
    | comment t =>
      simp only [List.filter_cons, List.flatMap_cons, if_true, List.nil_append, printedComments,
        List.cons_append]
      exact ih.cons t
    | _ =>
      simp only [List.filter_cons, List.flatMap_cons, if_true, List.nil_append, printedComments]
      exact ih

theorem cell (h : Coms d c) : Coms (.cell d) c := by
  rintro ns m i _ ⟨x, m', hx, -, rfl⟩
  exact (inline_perm x).trans (h _ _ _ _ hx)

theorem verb {es : List El} : Coms (.verb es) (printedComments es) := by
  rintro ns m i x rfl; exact .refl _

theorem ite {p : Prop} [Decidable p] (ha : Coms a c) (hb : Coms b c) :
    Coms (if p then a else b) c := by
  split
  · exact ha
  · exact hb

theorem pre (ha : Coms a []) (hb : Coms b c) : Coms (a ⊹ b) c := ha.cat hb
theorem post (ha : Coms a c) (hb : Coms b []) : Coms (a ⊹ b) c :=
  (ha.cat hb).congr (by rw [List.append_nil])

theorem softBlock (h : Coms d c) : Coms (softBlock d) c :=
  post (indent (pre (line _) h)) (line _)
theorem hardBlock (h : Coms d c) : Coms (hardBlock d) c :=
  post (indent (pre (line _) h)) (line _)
theorem spaceBlock (h : Coms d c) : Coms (spaceBlock d) c :=
  post (indent (pre (line _) h)) (line _)
theorem maybeSpace (b : Bool) : Coms (maybeSpace b) [] := by
  unfold Format.maybeSpace
  exact ite space nil

theorem leading (cs : List Comment) : Coms (leadingDoc cs) (texts cs) := by
  induction cs with
  | nil => exact nil
  | cons c cs ih => exact (comment _).cat (pre (line _) ih)

theorem trailing (cs : List Comment) : ∀ n, Coms (trailingDoc n cs) (texts cs) := by
  induction cs with
  | nil => intro n; exact nil
  | cons c cs ih => intro n; exact (suffix _ _).cat (ih _)

theorem dangling : (cs : List Comment) → Coms (danglingComments cs) (texts cs)
  | [] => nil
  | [_] => comment _
  | _ :: _ :: _ => (comment _).cat (pre (line _) (dangling _))

theorem danglingSoft (cs : List Comment) : Coms (danglingSoft cs) (texts cs) := by
  unfold Format.danglingSoft
  split
  · rename_i h
    cases cs with
    | nil => exact nil
    | cons => simp at h
  · exact group (softBlock (dangling _))

theorem danglingHard (cs : List Comment) : Coms (danglingHard cs) (texts cs) := by
  unfold Format.danglingHard
  split
  · rename_i h
    cases cs with
    | nil => exact nil
    | cons => simp at h
  · exact hardBlock (dangling _)

/-- Comments in source text. -/
theorem raw : (ts : List Token) → printedComments (rawEls ts) = commentTexts (innerTrivia ts)
  | [] => rfl
  | [_] => rfl
  | t :: u :: ts => by
    have hp : ∀ ps : List Piece, printedComments (ps.map pieceEl) = commentTexts ps := by
      intro ps
      induction ps with
      | nil => rfl
      | cons p ps ih =>
        unfold commentTexts at *
        cases h : p.kind <;> simp [pieceEl, h, printedComments, ih]
    have ih := raw (u :: ts)
    simp only [rawEls, innerTrivia, printedComments, printedComments_append, hp, ih]
    simp [commentTexts]

theorem verbatim {a : Ann} {ts : List Token} {cs : List Comment} (h : VerbOk a ts cs) :
    Coms (verbatimDoc a ts) (texts cs) := by
  refine ((leading _).cat (verb.cat (trailing _ 0))).congr ?_
  rw [raw, ← List.append_assoc]
  exact h

theorem node {x : Ann} {f dg : Doc} {cd : List (List Byte)} (hf : Coms f c) (hd : Coms dg cd)
    (hp : (c ++ cd).Perm (texts x.dangling ++ c')) : Coms (nodeDoc x f dg) (texts x.all ++ c') := by
  refine ((leading _).cat (hf.cat (hd.cat (trailing _ 0)))).congr ?_
  rw [List.perm_iff_count] at *
  intro t
  have := hp t
  simp only [texts, Ann.all, List.map_append, List.count_append] at *
  omega

theorem nodeSoft {x : Ann} {f : Doc} (hf : Coms f c) :
    Coms (nodeDoc x f (Format.danglingSoft x.dangling)) (texts x.all ++ c) :=
  node hf (danglingSoft _) List.perm_append_comm

theorem nodeOwn {x : Ann} {f : Doc} (hf : Coms f (texts x.dangling ++ c)) :
    Coms (nodeDoc x f .nil) (texts x.all ++ c) :=
  node hf nil (by rw [List.append_nil])

theorem bodyDoc (as force : Bool) (h : Coms d c) : Coms (bodyDoc as force d) c := by
  unfold Format.bodyDoc braceDoc
  exact ite h (ite (pre (tok _) (post (hardBlock h) (tok _)))
    (pre (ifBreaks (tok _)) (post (softBlock h) (ifBreaks (tok _)))))

end Coms

/-! ## Lists of arguments -/

/-- Comments of an entry. -/
def ItemDoc.texts (x : ItemDoc) : List (List Byte) := Format.texts x.arg.comments

/-- Comments of entries. -/
def itemTexts (ds : List ItemDoc) : List (List Byte) := ds.flatMap ItemDoc.texts

/-- The entry prints its comments. -/
structure ItemDoc.Com (x : ItemDoc) : Prop where
  doc : Coms x.doc x.texts
  grouped : Coms x.grouped x.texts
  fields : Coms x.fields (Format.texts x.arg.inner)
  dangling : x.arg.ann.dangling = []

theorem itemTexts_cons (x : ItemDoc) (xs : List ItemDoc) :
    itemTexts (x :: xs) = x.texts ++ itemTexts xs := List.flatMap_cons

theorem itemTexts_append (x y : List ItemDoc) : itemTexts (x ++ y) = itemTexts x ++ itemTexts y :=
  List.flatMap_append

namespace Coms
variable {ds : List ItemDoc}

theorem sepDoc (x : ItemDoc) : Coms x.sepDoc [] := by
  unfold ItemDoc.sepDoc
  split
  · exact tokDoc _
  · exact nil

theorem full {x : ItemDoc} (h : x.Com) : Coms x.full x.texts := post h.doc (sepDoc x)

theorem catAll (h : ∀ d ∈ ds, ItemDoc.Com d) :
    Coms (Format.catAll (ds.map ItemDoc.full)) (itemTexts ds) := by
  induction ds with
  | nil => exact nil
  | cons x xs ih =>
    rw [itemTexts_cons]
    exact (full (h x (by simp))).cat (ih fun d hd => h d (by simp [hd]))

theorem argsTail (h : ∀ d ∈ ds, ItemDoc.Com d) : Coms (argsTail ds) (itemTexts ds) := by
  induction ds with
  | nil => exact nil
  | cons x xs ih =>
    rw [itemTexts_cons]
    exact pre (line _) ((full (h x (by simp))).cat (ih fun d hd => h d (by simp [hd])))

theorem argsJoin (h : ∀ d ∈ ds, ItemDoc.Com d) : Coms (argsJoin ds) (itemTexts ds) := by
  cases ds with
  | nil => exact nil
  | cons x xs =>
    rw [itemTexts_cons]
    exact (full (h x (by simp))).cat (argsTail fun d hd => h d (by simp [hd]))

theorem paramsTail (h : ∀ d ∈ ds, ItemDoc.Com d) : Coms (paramsTail ds) (itemTexts ds) := by
  induction ds with
  | nil => exact nil
  | cons x xs ih =>
    rw [itemTexts_cons]
    exact pre (line _) ((full (h x (by simp))).cat (ih fun d hd => h d (by simp [hd])))

theorem paramsJoin (h : ∀ d ∈ ds, ItemDoc.Com d) : Coms (paramsJoin ds) (itemTexts ds) := by
  cases ds with
  | nil => exact nil
  | cons x xs =>
    rw [itemTexts_cons]
    exact (full (h x (by simp))).cat (paramsTail fun d hd => h d (by simp [hd]))

theorem groupedJoin (ex single : Bool) (h : ∀ d ∈ ds, ItemDoc.Com d) :
    Coms (groupedJoin ex single ds) (itemTexts ds) := by
  induction ds with
  | nil => exact nil
  | cons x xs ih =>
    rw [itemTexts_cons]
    cases xs with
    | nil =>
      have hx := h x (by simp)
      have : Coms ((if single = true then x.doc else x.grouped) ⊹ x.sepDoc) (x.texts ++ itemTexts []) :=
        (ite hx.doc hx.grouped).cat (sepDoc x)
      rw [Format.groupedJoin]
      exact ite (group this) this
    | cons y ys =>
      exact (full (h x (by simp))).cat (pre (line _) (ih fun d hd => h d (by simp [hd])))

theorem testJoin (h : ∀ d ∈ ds, ItemDoc.Com d) : Coms (testJoin ds) (itemTexts ds) := by
  induction ds with
  | nil => exact nil
  | cons x xs ih =>
    rw [itemTexts_cons]
    cases xs with
    | nil => exact (full (h x (by simp))).congr (by simp [itemTexts])
    | cons y ys =>
      exact (full (h x (by simp))).cat (pre space (ih fun d hd => h d (by simp [hd])))

theorem brokenOut (ex : Bool) (l r : Token) {hs as : List ItemDoc} (h : ∀ d ∈ hs, ItemDoc.Com d)
    (h' : ∀ d ∈ as, ItemDoc.Com d) : Coms (brokenOut ex l hs as r) (itemTexts hs ++ itemTexts as) := by
  unfold Format.brokenOut
  refine group (pre (tokDoc _) ((catAll h).cat (pre (maybeSpace _) (post ?_ (tokDoc _)))))
  split
  · rename_i he
    cases as with
    | nil => exact nil
    | cons => simp at he
  · exact ite (argsJoin h') (softBlock (argsJoin h'))

theorem groupedArgs (l r : Token) {hs as : List ItemDoc} (h : ∀ d ∈ hs, ItemDoc.Com d)
    (h' : ∀ d ∈ as, ItemDoc.Com d) : Coms (groupedArgs l hs as r) (itemTexts hs ++ itemTexts as) := by
  unfold Format.groupedArgs
  have hj : ∀ ex, Coms ((Format.tokDoc l ⊹ Format.catAll (hs.map ItemDoc.full) ⊹
      Format.maybeSpace (!hs.isEmpty && !as.isEmpty)) ⊹ Format.groupedJoin ex (as.length == 1) as ⊹
        Format.tokDoc r) (itemTexts hs ++ itemTexts as) := fun ex =>
    cat (pre (tokDoc _) (post (catAll h) (maybeSpace _))) (post (groupedJoin _ _ h') (tokDoc _))
  exact alt (group (hj _)) (alt (group (hj _)) (brokenOut _ _ _ h h'))

theorem argsDoc {o : Opts} {k : CallKind} {aa : Ann} {items : Items} (l r : Token)
    (h : ∀ d ∈ ds, ItemDoc.Com d) (hd : ds ≠ [] → aa.dangling = []) :
    Coms (argsDoc o k aa l items ds r) (Format.texts aa.dangling ++ itemTexts ds) := by
  unfold Format.argsDoc
  cases ds with
  | nil => exact (pre (tokDoc _) (post (danglingSoft _) (tokDoc _))).congr (by simp [itemTexts])
  | cons x xs =>
    rw [hd (by simp)]
    rw [if_neg (by simp)]
    refine ite (pre (tokDoc _) (post (testJoin h) (tokDoc _))) ?_
    generalize hg : x :: xs = ds at *
    have h1 : ∀ d ∈ ds.takeWhile ItemDoc.isHole, ItemDoc.Com d :=
      fun d hd => h d ((List.takeWhile_sublist _).subset hd)
    have h2 : ∀ d ∈ ds.dropWhile ItemDoc.isHole, ItemDoc.Com d :=
      fun d hd => h d ((List.dropWhile_sublist _).subset hd)
    have he : Format.texts [] ++ itemTexts ds = itemTexts (ds.takeWhile ItemDoc.isHole) ++
        itemTexts (ds.dropWhile ItemDoc.isHole) := by
      rw [← itemTexts_append, List.takeWhile_append_dropWhile]; rfl
    rw [he]
    exact ite (brokenOut _ _ _ h1 h2) (ite (brokenOut _ _ _ h1 h2)
      (ite (groupedArgs _ _ h1 h2) (brokenOut _ _ _ h1 h2)))

/-- Comments of an argument: its own and those inside. -/
theorem arg_texts (x : Arg) : (Format.texts x.comments).Perm
    (Format.texts x.ann.all ++ Format.texts x.inner) := by
  cases x <;> simp only [Arg.comments, Arg.ann, Arg.inner] <;> perm_cs

theorem cellDoc {x : ItemDoc} (h : x.Com) : Coms (cellDoc x) x.texts := by
  unfold Format.cellDoc
  refine pre pad (post ?_ (pre pad (pre ?_ space)))
  · refine ite h.doc ?_
    refine ((leading _).cat ((cell h.fields).cat (trailing _ 0))).congr ?_
    refine List.Perm.trans ?_ (arg_texts x.arg).symm
    have hd := h.dangling
    rw [List.perm_iff_count]
    intro t
    simp only [Format.texts, Ann.all, List.map_append, List.count_append, hd, List.map_nil,
      List.count_nil]
    omega
  · split
    · exact pre space (tokDoc _)
    · exact nil

theorem tableRows (h : ∀ d ∈ ds, ItemDoc.Com d) : ∀ first, Coms (tableRows first ds) (itemTexts ds) := by
  induction ds with
  | nil => intro first; exact nil
  | cons x xs ih =>
    intro first
    rw [itemTexts_cons]
    exact pre (ite (line _) nil) ((cellDoc (h x (by simp))).cat (ih (fun d hd => h d (by simp [hd])) _))

theorem remainingDoc (h : ∀ d ∈ ds, ItemDoc.Com d) : Coms (remainingDoc ds) (itemTexts ds) := by
  cases ds with
  | nil => exact nil
  | cons x xs => exact pre (line _) (argsTail h)

theorem tableDoc {o : Opts} {aa : Ann} {items : Items} (l r : Token)
    (h : ∀ d ∈ ds, ItemDoc.Com d) (hd : ds ≠ [] → aa.dangling = [])
    (hv : ds ≠ [] → aa.leading = [] ∧ aa.trailing = [] ∧
      (commentTexts (innerTrivia (l :: (items.tokens ++ [r])))).Perm (itemTexts ds)) :
    Coms (tableDoc o aa l items ds r) (Format.texts aa.dangling ++ itemTexts ds) := by
  unfold Format.tableDoc
  cases ds with
  | nil => exact argsDoc (o := o) (k := .call) (items := items) l r h hd
  | cons x xs =>
    rw [if_neg (by simp), hd (by simp)]
    obtain ⟨h1, h2, h3⟩ := hv (by simp)
    generalize hg : x :: xs = ds at *
    have k1 : ∀ d ∈ ds.takeWhile (fun x => !x.arg.isNamed), ItemDoc.Com d :=
      fun d hd => h d ((List.takeWhile_sublist _).subset hd)
    have k2 : ∀ d ∈ ds.dropWhile (fun x => !x.arg.isNamed), ItemDoc.Com d :=
      fun d hd => h d ((List.dropWhile_sublist _).subset hd)
    refine alt (group (pre (tokDoc _) (post (softBlock
      (((tableRows k1 _).cat (remainingDoc k2)).congr ?_)) (tokDoc _)))) ?_
    · rw [← itemTexts_append, List.takeWhile_append_dropWhile]; exact .refl _
    · unfold verbatimDoc
      rw [h1, h2]
      exact pre nil (post (verb.congr (by rw [raw]; exact h3)) nil)

theorem paramsDoc {o : Opts} {pa : Ann} (l r : Token) (h : ∀ d ∈ ds, ItemDoc.Com d)
    (hd : ds ≠ [] → pa.dangling = []) :
    Coms (paramsDoc o pa l ds r) (Format.texts pa.all ++ itemTexts ds) := by
  unfold Format.paramsDoc
  refine nodeOwn ?_
  cases ds with
  | nil => exact (pre (tokDoc _) (post (danglingSoft _) (tokDoc _))).congr (by simp [itemTexts])
  | cons x xs =>
    rw [hd (by simp)]
    exact group (pre (tokDoc _) (post (softBlock (paramsJoin h)) (tokDoc _)))

/-! ## Expressions -/

theorem keptAt_eq (o : Opts) (cx : Cx) (e : Expr) : kept o cx e = keptAt o cx.dir cx.chain e := by
  unfold keptAt kept suppressed
  cases e <;> rfl

theorem tableAt_eq (o : Opts) (cx : Cx) (a : Ann) (k : CallKind) (f : Expr) :
    isTable o cx a k f = tableAt o cx.dir cx.table a k f := rfl

variable {o : Opts}

theorem wrapDoc {cx : Cx} {e : Expr} {d : Doc} {P : Prop} (hk : KeptOr o cx.dir cx.chain e P)
    (hch : cx.chain = true → e.isChain = true → e.ann.leading = [] ∧ e.ann.dangling = [])
    (hb : e.isBraced = false) (cs : List Comment) (hc : (Format.texts e.comments).Perm
      (Format.texts e.ann.all ++ Format.texts cs)) (hd : P → Coms d (Format.texts cs)) :
    Coms (wrapDoc o cx e d) (Format.texts e.comments) := by
  unfold KeptOr at hk
  rw [← keptAt_eq] at hk
  unfold Format.wrapDoc
  unfold kept at hk
  by_cases h1 : (cx.chain && e.isChain) = true
  · rw [if_pos h1]
    rw [h1] at hk
    simp only [Bool.and_eq_true] at h1
    obtain ⟨h2, h3⟩ := hch h1.1 h1.2
    simp only [Bool.not_true, Bool.false_and, Bool.false_eq_true, if_false] at hk
    refine ((hd hk).cat (trailing _ 0)).congr (List.Perm.trans ?_ hc.symm)
    simp only [Ann.all, h2, h3, List.nil_append]
    exact List.perm_append_comm
  · rw [if_neg h1]
    simp only [Bool.not_eq_true] at h1
    rw [h1] at hk
    simp only [Bool.not_false, Bool.true_and] at hk
    by_cases h2 : suppressed o cx e = true
    · rw [if_pos h2] at hk ⊢
      exact verbatim hk
    · rw [if_neg h2] at hk ⊢
      rw [hb]
      exact (nodeSoft (hd hk)).congr hc.symm

theorem argDoc {dir : Bool} {x : Arg} {d : Doc}
    (hk : hasDirective o dir x.ann .skip = true → VerbOk x.ann x.tokens x.comments)
    (hd : Coms d (Format.texts x.inner)) : Coms (argDoc o dir x d) (Format.texts x.comments) := by
  unfold Format.argDoc
  split
  · rename_i h
    exact verbatim (hk h)
  · exact (nodeSoft hd).congr (arg_texts x).symm

theorem wrapBraced {cx : Cx} {a : Ann} {l : Token} {es : Exprs} {r : Token} {d : Doc} {P : Prop}
    (hk : KeptOr o cx.dir cx.chain (.braced a l es r) P)
    (hd : P → Coms d (Format.texts a.dangling ++ Format.texts es.comments)) :
    Coms (Format.wrapDoc o cx (.braced a l es r) d) (Format.texts (Expr.comments (.braced a l es r))) := by
  unfold KeptOr at hk
  rw [← keptAt_eq] at hk
  unfold Format.wrapDoc
  unfold kept at hk
  have h1 : (cx.chain && Expr.isChain (.braced a l es r)) = false := by
    simp [Expr.isChain]
  rw [h1] at hk ⊢
  rw [if_neg (by simp)]
  simp only [Bool.not_false, Bool.true_and] at hk
  by_cases h2 : suppressed o cx (.braced a l es r) = true
  · rw [if_pos h2] at hk ⊢
    exact verbatim hk
  · rw [if_neg h2] at hk ⊢
    refine (nodeOwn (hd hk)).congr ?_
    simp only [Expr.comments, Expr.ann]
    perm_cs

theorem fmtItems_ne {vcx : Cx} {dir : Bool} {items : Items}
    (h : fmtItems o vcx dir items ≠ []) : items ≠ .nil := by
  rintro rfl
  exact h rfl

theorem fmtItems_texts (vcx : Cx) (dir : Bool) : (items : Items) →
    itemTexts (fmtItems o vcx dir items) = Format.texts items.comments
  | .nil => rfl
  | .last x => by simp [fmtItems, itemTexts, ItemDoc.texts, Items.comments]
  | .cons x s xs => by
    rw [fmtItems, itemTexts_cons, fmtItems_texts vcx dir xs]
    simp [ItemDoc.texts, Items.comments, Format.texts]

theorem bracedDoc {cx : Cx} {a : Ann} (l : Token) {es : Exprs} {list : Doc} (r : Token)
    (hp : Expr.Proper (.braced a l es r)) (hl : Coms list (Format.texts es.comments)) :
    Coms (bracedDoc cx a l es list r) (Format.texts a.dangling ++ Format.texts es.comments) := by
  unfold Format.bracedDoc
  split
  · exact (pre (tokDoc _) (post (danglingHard _) (tokDoc _))).congr (by simp [Exprs.comments, Format.texts])
  · rename_i hne
    rw [Expr.Proper] at hp
    rw [hp.1 (fun h => hne h)]
    split
    · rename_i ia il ea t ir hcc
      unfold curlyCurly at hcc
      split at hcc
      · rename_i ia' il' ea' t' ir'
        split at hcc
        · cases hcc
          have hd : ia.dangling = [] := by
            have := hp.2
            rw [Exprs.Proper, Expr.Proper] at this
            exact this.1.1 (fun h => by cases h)
          refine (group ((leading _).cat (pre (tokDoc _) (pre (tokDoc _)
            ((spaceBlock (nodeSoft (tokDoc t))).cat (pre (tokDoc _) (pre (tokDoc _)
              (trailing _ 0)))))))).congr ?_
          simp only [Exprs.comments, Expr.comments, Ann.all, hd]
          perm_cs
        · cases hcc
      · cases hcc
    · exact pre (tokDoc _) (post (hardBlock hl) (tokDoc _))

mutual
/-- The document of an expression prints the comments attached to its nodes. -/
theorem fmt : (e : Expr) → (cx : Cx) → e.Proper →
    (cx.chain = true → e.isChain = true → e.ann.leading = [] ∧ e.ann.dangling = []) →
    Verbs o cx.dir cx.chain cx.table e → Coms (fmt o cx e) (Format.texts e.comments)
  | .atom a k t, cx, hp, hc, hv => by
    rw [Format.fmt]
    exact wrapDoc hv hc rfl [] (by simp [Expr.comments, Expr.ann, Format.texts]) fun _ => tokDoc _
  | .str a p c l, cx, hp, hc, hv => by
    have hd : Coms (match (generalizing := false) c with | some t => Format.tokDoc t | none => .nil) [] := by
      cases c
      · exact nil
      · exact tokDoc _
    cases c <;> simp only [Format.fmt] <;>
      exact wrapDoc hv hc rfl [] (by simp [Expr.comments, Expr.ann, Format.texts]) fun _ =>
        pre (tokDoc _) (pre hd (tokDoc _))
  | .paren a l e r, cx, hp, hc, hv => by
    rw [Format.fmt]
    refine wrapDoc hv hc rfl e.comments (by simp [Expr.comments, Expr.ann, Format.texts]) fun h => ?_
    have ih := fmt e (bodyCx cx) hp (fun h => by cases h) h
    exact pre (tokDoc _) (post (ite (hardBlock ih) ih) (tokDoc _))
  | .braced a l es r, cx, hp, hc, hv => by
    rw [Format.fmt]
    refine wrapBraced hv fun h => bracedDoc l r hp (fmtExprs es cx _ _ ?_ h)
    rw [Expr.Proper] at hp
    exact hp.2
  | .unary a p e, cx, hp, hc, hv => by
    rw [Format.fmt]
    refine wrapDoc hv hc rfl e.comments (by simp [Expr.comments, Expr.ann, Format.texts]) fun h => ?_
    have ih := fmt e (if p.kind = .wat then bodyCx cx else plainCx cx) hp
      (by split <;> exact fun h => by cases h) (by split <;> exact h)
    exact pre (tokDoc _) (pre (maybeSpace _) (ite (softBlock ih) ih))
  | .binary a x p y, cx, hp, hc, hv => by
    rw [Format.fmt]
    refine wrapDoc hv hc rfl (x.comments ++ y.comments)
      (by simp [Expr.comments, Expr.ann, Format.texts]) fun h => ?_
    rw [Expr.Proper] at hp
    have hx : ∀ al, Coms (Format.fmt o { opCx cx p.kind with
        chain := isChainOp p.kind, aligned := al } x) (Format.texts x.comments) := fun al =>
      fmt x _ hp.2.1 (by
        intro _ hch
        cases x with
        | binary a' x' p' y' => exact hp.1 a' x' p' y' rfl
        | _ => cases hch) h.1
    have hy : ∀ al, Coms (Format.fmt o { opCx cx p.kind with
        aligned := al,
        table := if isAssignOp p.kind && hasDirective o cx.dir a .table then some true else none } y)
        (Format.texts y.comments) := fun al => fmt y _ hp.2.2 (fun h => by cases h) h.2
    have htx : Format.texts (x.comments ++ y.comments) =
      Format.texts x.comments ++ Format.texts y.comments := by simp [Format.texts]
    rw [htx]
    split
    · rename_i hs
      have h1 : isChainOp p.kind = false := by revert hs; cases p.kind <;> simp [isSticky, isChainOp]
      have h2 : isAssignOp p.kind = false := by revert hs; cases p.kind <;> simp [isSticky, isAssignOp]
      have hx := hx false
      have hy := hy false
      rw [h1] at hx
      rw [h2] at hy
      exact group (hx.cat (pre (tokDoc _) hy))
    · split
      · rename_i ha
        have h1 : isChainOp p.kind = false := by revert ha; cases p.kind <;> simp [isAssignOp, isChainOp]
        have hx := hx false
        have hy := hy (assignBreak o p.kind y)
        rw [h1] at hx
        rw [ha, Bool.true_and] at hy
        exact group (hx.cat (pre space (pre (tok _) (ite (indent (pre (line _) hy)) (pre space hy)))))
      · rename_i ha
        simp only [Bool.not_eq_true] at ha
        have hy := hy false
        rw [ha] at hy
        split
        · rename_i hch
          have hx := hx cx.aligned
          rw [hch] at hx
          have hpc : Coms (chainPiece p y (Format.fmt o (opCx cx p.kind) y)) (Format.texts y.comments) :=
            pre space (pre (tokDoc _) (pre (line _) hy))
          have hd := hx.cat (ite (p := cx.aligned = true) hpc (indent hpc))
          exact ite hd (group hd)
        · rename_i hch
          simp only [Bool.not_eq_true] at hch
          have hx := hx false
          rw [hch] at hx
          exact group (hx.cat (pre space (pre (tokDoc _) (indent (pre (line _) hy)))))
  | .sel a k x p y, cx, hp, hc, hv => by
    rw [Format.fmt]
    refine wrapDoc hv hc rfl (x.comments ++ y.comments)
      (by simp [Expr.comments, Expr.ann, Format.texts]) fun h => ?_
    rw [Expr.Proper] at hp
    have hx := fmt x (plainCx cx) hp.1 (fun h => by cases h) h.1
    have hy := fmt y (plainCx cx) hp.2 (fun h => by cases h) h.2
    exact (group (hx.cat (pre (tokDoc _) hy))).congr (by simp [Format.texts])
  | .call a k f aa l items r, cx, hp, hc, hv => by
    rw [Format.fmt]
    refine wrapDoc hv hc rfl (f.comments ++ (aa.all ++ items.comments))
      (by simp [Expr.comments, Expr.ann, Format.texts]) fun h => ?_
    rw [Expr.Proper] at hp
    obtain ⟨h1, h2, h3, h4⟩ := hp
    have hf := fmt f (plainCx cx) h3 (fun h => by cases h) h.1
    have hi := fmtItems items { inArg := true } true ⟨rfl, rfl, rfl⟩ h4 h.2.1
    have ht := fmtItems_texts (o := o) { inArg := true } true items
    refine (hf.cat (nodeOwn (c := Format.texts items.comments) ?_)).congr (by simp [Format.texts])
    rw [← ht]
    by_cases htb : tableAt o cx.dir cx.table a k f = true
    · have hif : k = .call ∧ cx.table.getD (hasDirective o cx.dir a .table || inSetting o.table f) = true := by
        simpa [tableAt, isTable] using htb
      rw [if_pos hif]
      refine tableDoc l r hi (fun hne => h1 (fmtItems_ne hne)) fun hne => ?_
      have hne := fmtItems_ne hne
      obtain ⟨k1, k2⟩ := h.2.2 htb hne
      refine ⟨k1, h2, ?_⟩
      rw [ht]
      unfold VerbOk at k2
      rw [k1, h2, Ann.all, k1, h2, h1 hne] at k2
      simpa [Format.texts] using k2
    · have hif : ¬ (k = .call ∧ cx.table.getD (hasDirective o cx.dir a .table || inSetting o.table f) = true) := by
        simpa [tableAt, isTable] using htb
      rw [if_neg hif]
      exact argsDoc l r hi (fun hne => h1 (fmtItems_ne hne))
  | .func a kw pa l items r b, cx, hp, hc, hv => by
    rw [Format.fmt]
    refine wrapDoc hv hc rfl (pa.all ++ items.comments ++ b.comments)
      (by simp [Expr.comments, Expr.ann, Format.texts]) fun h => ?_
    rw [Expr.Proper] at hp
    have hi := fmtItems items (plainCx cx) false ⟨rfl, rfl, rfl⟩ hp.2.1 h.1
    have hb := fmt b (bodyCx cx) hp.2.2 (fun h => by cases h) h.2
    have hps := paramsDoc (o := o) l r hi fun hne => hp.1 (fmtItems_ne hne)
    refine (group (pre (tokDoc _) ((ite (noSoft hps) hps).cat (pre space
      (bodyDoc _ _ hb))))).congr ?_
    rw [fmtItems_texts]
    simp [Format.texts]
  | .ite a kw l c r t, cx, hp, hc, hv => by
    rw [Format.fmt]
    refine wrapDoc hv hc rfl (c.comments ++ t.comments)
      (by simp [Expr.comments, Expr.ann, Format.texts]) fun h => ?_
    rw [Expr.Proper] at hp
    have h1 := fmt c (plainCx cx) hp.1 (fun h => by cases h) h.1
    have h2 := fmt t (bodyCx cx) hp.2 (fun h => by cases h) h.2
    exact (group (pre (tokDoc _) (pre space (pre (tokDoc _) ((group (softBlock h1)).cat
      (pre (tokDoc _) (pre space (bodyDoc _ _ h2)))))))).congr (by simp [Format.texts])
  | .itee a kw l c r t ea el e, cx, hp, hc, hv => by
    rw [Format.fmt]
    refine wrapDoc hv hc rfl (c.comments ++ t.comments ++ ea.all ++ e.comments)
      (by simp [Expr.comments, Expr.ann, Format.texts]) fun h => ?_
    rw [Expr.Proper] at hp
    have h1 := fmt c (plainCx cx) hp.1 (fun h => by cases h) h.1
    have h2 := fmt t (bodyCx cx) hp.2.1 (fun h => by cases h) h.2.1
    have h3 := fun br => fmt e { bodyCx cx with braces := br } hp.2.2 (fun h => by cases h) h.2.2
    exact (group (pre (tokDoc _) (pre space (pre (tokDoc _) ((group (softBlock h1)).cat
      (pre (tokDoc _) (pre space ((bodyDoc _ _ h2).cat (pre space
        (nodeSoft (pre (tokDoc _) (pre space (bodyDoc _ _ (h3 _))))))))))))) ).congr
        (by simp [Format.texts])
  | .for_ a kw l v i s r b, cx, hp, hc, hv => by
    rw [Format.fmt]
    refine wrapDoc hv hc rfl (v.comments ++ s.comments ++ b.comments)
      (by simp [Expr.comments, Expr.ann, Format.texts]) fun h => ?_
    rw [Expr.Proper] at hp
    have h1 := fmt v (plainCx cx) hp.1 (fun h => by cases h) h.1
    have h2 := fmt s (plainCx cx) hp.2.1 (fun h => by cases h) h.2.1
    have h3 := fmt b (bodyCx cx) hp.2.2 (fun h => by cases h) h.2.2
    exact (group (pre (tokDoc _) (pre space (pre (tokDoc _) (h1.cat (pre space (pre (tokDoc _)
      (pre space (h2.cat (pre (tokDoc _) (pre space (bodyDoc _ _ h3)))))))))))).congr
        (by simp [Format.texts])
  | .while_ a kw l c r b, cx, hp, hc, hv => by
    rw [Format.fmt]
    refine wrapDoc hv hc rfl (c.comments ++ b.comments)
      (by simp [Expr.comments, Expr.ann, Format.texts]) fun h => ?_
    rw [Expr.Proper] at hp
    have h1 := fmt c (plainCx cx) hp.1 (fun h => by cases h) h.1
    have h2 := fmt b (bodyCx cx) hp.2 (fun h => by cases h) h.2
    exact (group (pre (tokDoc _) (pre space (pre (tokDoc _) ((group (softBlock h1)).cat
      (pre (tokDoc _) (pre space (bodyDoc _ _ h2)))))))).congr (by simp [Format.texts])
  | .repeat_ a kw b, cx, hp, hc, hv => by
    rw [Format.fmt]
    refine wrapDoc hv hc rfl b.comments
      (by simp [Expr.comments, Expr.ann, Format.texts]) fun h => ?_
    have h2 := fmt b (bodyCx cx) hp (fun h => by cases h) h
    exact group (pre (tokDoc _) (pre space (bodyDoc _ _ h2)))
theorem fmtExprs : (es : Exprs) → (cx : Cx) → (top first : Bool) → es.Proper → VerbsL o es →
    Coms (fmtExprs o cx top first es) (Format.texts es.comments)
  | .nil, _, _, _, _, _ => nil
  | .cons e es, cx, top, first, hp, hv => by
    rw [Format.fmtExprs]
    rw [Exprs.Proper] at hp
    have h1 := fmt e { dir := true, eq := true, inArg := cx.inArg, effect := top || 0 < es.length }
      hp.1 (fun h => by cases h) hv.1
    have h2 := fmtExprs es cx top false hp.2 hv.2
    refine (pre (ite nil ?_) (h1.cat h2)).congr (by simp [Exprs.comments, Format.texts])
    unfold stmtSep
    exact ite (ite (pre (line _) rnl) (ite (line _) (line _))) (ite (line _) (line _))
theorem fmtItems : (items : Items) → (vcx : Cx) → (dir : Bool) →
    (vcx.dir = false ∧ vcx.chain = false ∧ vcx.table = none) → items.Proper →
    VerbsI o dir items → ∀ d ∈ fmtItems o vcx dir items, ItemDoc.Com d
  | .nil, _, _, _, _, _ => fun d hd => by cases hd
  | .last x, vcx, dir, hx, hp, hv => fun d hd => by
    simp only [Format.fmtItems, List.mem_singleton] at hd
    rw [Items.Proper] at hp
    rw [VerbsI] at hv
    subst hd
    exact item x vcx dir none hx hp hv
  | .cons x s xs, vcx, dir, hx, hp, hv => fun d hd => by
    simp only [Format.fmtItems, List.mem_cons] at hd
    rw [Items.Proper] at hp
    rw [VerbsI] at hv
    rcases hd with hd | hd
    · subst hd
      exact item x vcx dir _ hx hp.1 hv.1
    · exact fmtItems xs vcx dir hx hp.2 hv.2 d hd
theorem item : (x : Arg) → (vcx : Cx) → (dir : Bool) → (s : Option Token) →
    (vcx.dir = false ∧ vcx.chain = false ∧ vcx.table = none) → x.Proper → VerbsA o dir x →
    ItemDoc.Com ⟨x, s, Format.argDoc o dir x (fmtArg o vcx x),
      Format.argDoc o dir x (fmtArg o { vcx with flatParams := true } x), fmtArg o vcx x⟩
  | .hole a, vcx, dir, s, hx, hp, hv => by
    have hf : ∀ v, Coms (fmtArg o v (.hole a)) (Format.texts (Arg.inner (.hole a))) := fun v => nil
    exact ⟨argDoc hv (hf vcx), argDoc hv (hf { vcx with flatParams := true }), hf vcx, hp⟩
  | .val a e, vcx, dir, s, ⟨hx1, hx2, hx3⟩, hp, hv => by
    rw [Arg.Proper] at hp
    rw [VerbsA] at hv
    have hf : ∀ fp, Coms (fmtArg o { vcx with flatParams := fp } (.val a e))
        (Format.texts (Arg.inner (.val a e))) := fun fp => by
      rw [fmtArg]
      exact fmt e _ hp.2 (fun h => by rw [hx2] at h; cases h) (by
        rw [hx1, hx2, hx3]
        exact hv.2)
    have h0 : ({ vcx with flatParams := vcx.flatParams } : Cx) = vcx := rfl
    have h1 := hf vcx.flatParams
    rw [h0] at h1
    exact ⟨argDoc hv.1 h1, argDoc hv.1 (hf _), h1, hp.1⟩
  | .name a na n q, vcx, dir, s, hx, hp, hv => by
    rw [Arg.Proper] at hp
    rw [VerbsA] at hv
    have hf : ∀ v, Coms (fmtArg o v (.name a na n q))
        (Format.texts (Arg.inner (.name a na n q))) := fun v => by
      rw [fmtArg]
      refine (post (nodeSoft (post (fmt n (plainCx v) hp.2 (fun h => by cases h) hv.2)
        (pre space (tokDoc _)))) space).congr ?_
      simp only [Arg.inner]
      perm_cs
    exact ⟨argDoc hv.1 (hf _), argDoc hv.1 (hf _), hf _, hp.1⟩
  | .named a na n q e, vcx, dir, s, ⟨hx1, hx2, hx3⟩, hp, hv => by
    rw [Arg.Proper] at hp
    rw [VerbsA] at hv
    have hf : ∀ fp, Coms (fmtArg o { vcx with flatParams := fp } (.named a na n q e))
        (Format.texts (Arg.inner (.named a na n q e))) := fun fp => by
      rw [fmtArg]
      have he := fmt e { vcx with flatParams := fp } hp.2.2
        (fun h => by rw [hx2] at h; cases h) (by rw [hx1, hx2, hx3]; exact hv.2.2)
      refine ((nodeSoft (post (fmt n (plainCx { vcx with flatParams := fp }) hp.2.1
        (fun h => by cases h) hv.2.1) (pre space (tokDoc _)))).cat (pre space he)).congr ?_
      simp only [Arg.inner]
      perm_cs
    have h0 : ({ vcx with flatParams := vcx.flatParams } : Cx) = vcx := rfl
    have h1 := hf vcx.flatParams
    rw [h0] at h1
    exact ⟨argDoc hv.1 h1, argDoc hv.1 (hf _), h1, hp.1⟩
  | .pdef a n da q e, vcx, dir, s, ⟨hx1, hx2, hx3⟩, hp, hv => by
    rw [Arg.Proper] at hp
    rw [VerbsA] at hv
    have hf : ∀ fp, Coms (fmtArg o { vcx with flatParams := fp } (.pdef a n da q e))
        (Format.texts (Arg.inner (.pdef a n da q e))) := fun fp => by
      rw [fmtArg]
      have he := fmt e { vcx with flatParams := fp } hp.2.2
        (fun h => by rw [hx2] at h; cases h) (by rw [hx1, hx2, hx3]; exact hv.2.2)
      refine ((fmt n (plainCx { vcx with flatParams := fp }) hp.2.1 (fun h => by cases h)
        hv.2.1).cat (pre space (nodeSoft (pre (tokDoc _) (pre space he))))).congr ?_
      simp only [Arg.inner]
      perm_cs
    have h0 : ({ vcx with flatParams := vcx.flatParams } : Cx) = vcx := rfl
    have h1 := hf vcx.flatParams
    rw [h0] at h1
    exact ⟨argDoc hv.1 h1, argDoc hv.1 (hf _), h1, hp.1⟩
end

/-- The document of a file prints the comments attached to its nodes. -/
theorem root {x : Root} (hs : rootSuppressed o x.es = false) (hp : x.es.Proper) (hv : VerbsL o x.es) :
    Coms (fmtRoot o x) (Format.texts x.ann.all ++ Format.texts x.es.comments) := by
  unfold fmtRoot
  rw [hs]
  exact nodeSoft (post (fmtExprs x.es {} true true hp hv) (line _))

end Coms

end Verif.Format
