import Verif.Model.Editor
import Verif.Model.Lsp

/-!
# C70 to C74: folders, commands, and settings in the editor
-/

namespace Verif.Editor

/-! ## C70: commands -/

/-- The document has changes that are not on disk, and its file is in the folder. -/
def Document.Pending (f : Folder) (d : Document) : Prop :=
  d.closed = false ∧ d.dirty = true ∧ d.untitled = false ∧
  (d.path = f.path ∨ ∃ rest, d.path.toList = f.path.toList ++ '/' :: rest)

theorem pending_dirty {f : Folder} {docs : List Document} {d : Document} (h : d ∈ docs) (hp : d.Pending f) :
    d ∈ dirtyDocuments f docs := by
  obtain ⟨h1, h2, h3, h4⟩ := hp
  refine List.mem_filter.2 ⟨h, ?_⟩
  simp only [h1, h2, h3, Bool.not_false, Bool.true_and, List.isPrefixOf_iff_prefix]
  rcases h4 with h4 | ⟨rest, h4⟩
  · rw [h4]; exact List.prefix_refl _
  · rw [h4]; exact List.prefix_append _ _

theorem saveAll_true {f : Folder} {docs : List Document} {agrees : Bool} {es : List Effect}
    (h : saveAll f docs agrees = (es, true)) (d : Document) (hd : d ∈ docs) (hp : d.Pending f) :
    Effect.save d ∈ es ∧ d.saves = true := by
  have hm := pending_dirty hd hp
  unfold saveAll at h
  split at h
  · rename_i hn
    rw [hn] at hm
    cases hm
  · split at h
    · simp only [Prod.mk.injEq] at h
      obtain ⟨rfl, h2⟩ := h
      rw [List.all_eq_true] at h2
      exact ⟨List.mem_map.2 ⟨d, hm, rfl⟩, h2 d hm⟩
    · simp at h

theorem saveAll_saves {f : Folder} {docs : List Document} {agrees ok : Bool} {es : List Effect}
    (h : saveAll f docs agrees = (es, ok)) : ∀ e ∈ es, agrees = true ∧ ∃ d ∈ docs, e = .save d := by
  unfold saveAll at h
  intro e he
  split at h
  · cases h; cases he
  · split at h
    · cases h
      rename_i hag
      obtain ⟨d, hd, rfl⟩ := List.mem_map.1 he
      exact ⟨hag, d, (List.mem_filter.1 hd).1, rfl⟩
    · cases h; cases he

/-- C70: formatting a folder runs the command line program once, on that folder, and only after all changed documents in
the folder have been saved; without changes to save it always runs. -/
theorem C70_format_saved (f : Folder) (binary : Path) (docs : List Document) (agrees : Bool) (b : Path)
    (args : List String) (cwd : Path) (h : Effect.spawn b args cwd ∈ formatFolder f binary docs agrees) :
    b = binary ∧ args = ["format", f.path, "--no-color"] ∧
    ∃ es, formatFolder f binary docs agrees = es ++ [.spawn b args cwd] ∧
      (∀ b' args' cwd', Effect.spawn b' args' cwd' ∉ es) ∧
      ∀ d ∈ docs, d.Pending f → Effect.save d ∈ es ∧ d.saves = true := by
  unfold formatFolder at h ⊢
  split at h
  · rename_i es hs
    have hno : ∀ b' args' cwd', Effect.spawn b' args' cwd' ∉ es := by
      intro b' args' cwd' hh
      obtain ⟨-, d, -, hd⟩ := saveAll_saves hs _ hh
      cases hd
    rcases List.mem_append.1 h with h | h
    · exact absurd h (hno _ _ _)
    · simp only [List.mem_singleton, Effect.spawn.injEq] at h
      obtain ⟨rfl, rfl, rfl⟩ := h
      exact ⟨rfl, rfl, es, rfl, hno, fun d hd hp => saveAll_true hs d hd hp⟩
  · rename_i es hs
    obtain ⟨-, d, -, hd⟩ := saveAll_saves hs _ h
    cases hd

/-- C70: likewise for the initialisation of a folder: files are only written after all changed documents in the folder
have been saved. -/
theorem C70_initialize_saved (f : Folder) (binary : Path) (docs : List Document) (agrees formats : Bool)
    (docs' : List Document) (agrees' : Bool)
    (h : Effect.initialize ∈ initializeFolder f binary docs agrees formats docs' agrees') :
    ∃ es es', initializeFolder f binary docs agrees formats docs' agrees' = es ++ [.initialize] ++ es' ∧
      ∀ d ∈ docs, d.Pending f → Effect.save d ∈ es ∧ d.saves = true := by
  unfold initializeFolder at h ⊢
  split at h
  · rename_i es hs
    exact ⟨es, _, rfl, fun d hd hp => saveAll_true hs d hd hp⟩
  · rename_i es hs
    obtain ⟨-, d, -, hd⟩ := saveAll_saves hs _ h
    cases hd

/-- C70: without the consent of the user nothing is saved; and if there are changes in the folder, nothing is formatted
either. -/
theorem C70_refused (f : Folder) (binary : Path) (docs : List Document) (d : Document) (hd : d ∈ docs)
    (hp : d.Pending f) : formatFolder f binary docs false = [] := by
  have hm := pending_dirty hd hp
  unfold formatFolder saveAll
  cases hn : dirtyDocuments f docs with
  | nil => rw [hn] at hm; cases hm
  | cons x xs => rfl

/-- C70: what is saved are open documents with changes and a file, whose path begins like that of the folder; each of
them is saved with the consent of the user. -/
theorem C70_saved (f : Folder) (binary : Path) (docs : List Document) (agrees : Bool) (d : Document)
    (h : Effect.save d ∈ formatFolder f binary docs agrees) :
    agrees = true ∧ d ∈ docs ∧ d.closed = false ∧ d.dirty = true ∧ d.untitled = false ∧
      f.path.toList <+: d.path.toList := by
  have hd : agrees = true ∧ d ∈ dirtyDocuments f docs := by
    unfold formatFolder saveAll at h
    cases agrees with
    | true =>
      refine ⟨rfl, ?_⟩
      cases hn : dirtyDocuments f docs with
      | nil => simp [hn] at h
      | cons x xs =>
        rw [hn] at h
        simp only [if_true] at h
        split at h <;> rename_i heq <;> simp only [Prod.mk.injEq] at heq <;> rw [← heq.1] at h <;>
          simpa [eq_comm] using h
    | false =>
      cases hn : dirtyDocuments f docs with
      | nil => simp [hn] at h
      | cons x xs => simp [hn] at h
  simp only [dirtyDocuments, List.mem_filter, Bool.and_eq_true, Bool.not_eq_true', List.isPrefixOf_iff_prefix] at hd
  exact ⟨hd.1, hd.2.1, hd.2.2.1.1.1, hd.2.2.1.1.2, hd.2.2.1.2, hd.2.2.2⟩

/-- C70: the initialisation formats nothing unless the user asks for it. -/
theorem C70_asked (f : Folder) (binary : Path) (docs docs' : List Document) (agrees agrees' formats : Bool) (b : Path)
    (args : List String) (cwd : Path)
    (h : Effect.spawn b args cwd ∈ initializeFolder f binary docs agrees formats docs' agrees') :
    formats = true ∧ Effect.initialize ∈ initializeFolder f binary docs agrees formats docs' agrees' ∧
      Effect.spawn b args cwd ∈ formatFolder f binary docs' agrees' := by
  unfold initializeFolder at h ⊢
  split at h
  · rename_i es heq
    have hs := saveAll_saves heq
    simp only [List.mem_append, List.mem_singleton, reduceCtorEq, or_false] at h
    rcases h with h | h
    · obtain ⟨-, d, -, hd⟩ := hs _ h
      cases hd
    · cases formats with
      | true => exact ⟨rfl, by simp, by simpa using h⟩
      | false => simp at h
  · rename_i es heq
    obtain ⟨-, d, -, hd⟩ := saveAll_saves heq _ h
    cases hd

/-- C70 does not hold the other way round: changes in a folder next to it, whose name only begins with the same letters,
are saved as well. -/
theorem C70_sibling : ∃ (f : Folder) (d : Document), ¬ d.Pending f ∧
    Effect.save d ∈ formatFolder f "air" [d] true := by
  refine ⟨⟨"/r/pkg", "pkg"⟩, ⟨"/r/pkg2/a.R", false, true, false, true⟩, ?_, by decide⟩
  rintro ⟨-, -, -, h | ⟨rest, h⟩⟩
  · exact absurd h (by decide)
  · have := congrArg (fun l => l[6]?) h
    revert this
    simp [show ("/r/pkg2/a.R" : String).toList = ['/', 'r', '/', 'p', 'k', 'g', '2', '/', 'a', '.', 'R'] by decide,
      show ("/r/pkg" : String).toList = ['/', 'r', '/', 'p', 'k', 'g'] by decide]

/-- C70: the command acts on the folder that the user has picked, if all folders have different names that are not
empty. -/
theorem C70_select_partial (ws : List Folder) (hn : (ws.map Folder.name).Nodup) (he : ∀ w ∈ ws, w.name ≠ "")
    (hl : 2 ≤ ws.length) (i : Nat) (w : Folder) (hi : ws[i]? = some w) : selectFolder (some i) ws = some w := by
  have hf : ws.find? (fun v => v.name == w.name) = some w := by
    clear hl
    induction ws generalizing i with
    | nil => simp at hi
    | cons v vs ih =>
      rw [List.map_cons, List.nodup_cons] at hn
      cases i with
      | zero =>
        simp only [List.getElem?_cons_zero, Option.some.injEq] at hi
        rw [List.find?_cons_of_pos (by simp [hi]), hi]
      | succ i =>
        simp only [List.getElem?_cons_succ] at hi
        have hne : v.name ≠ w.name := fun h => hn.1 (h ▸ List.mem_map_of_mem (List.mem_of_getElem? hi))
        rw [List.find?_cons_of_neg (by simpa using hne)]
        exact ih hn.2 (fun u hu => he u (List.mem_cons_of_mem _ hu)) i hi
  have hw := he w (List.mem_of_getElem? hi)
  cases ws with
  | nil => simp at hl
  | cons u us =>
    cases us with
    | nil => simp at hl
    | cons v vs =>
      simp only [selectFolder, List.getElem?_map, hi, Option.map_some, if_neg hw]
      exact hf

/-- C70 fails for folders with the same name: the first one is used, whichever the user picks. -/
theorem C70_same_name : ∃ (ws : List Folder) (w : Folder), ws[1]? = some w ∧ selectFolder (some 1) ws ≠ some w :=
  ⟨[⟨"/a/pkg", "pkg"⟩, ⟨"/b/pkg", "pkg"⟩], _, rfl, by decide⟩

/-! ## C71: the folder whose settings count -/

theorem shorter_spec (ex : Path → Bool) : ∀ (ws : List Folder) (r : Folder), ex r.path = true →
    ex (shorter ex r ws).path = true ∧ (shorter ex r ws = r ∨ shorter ex r ws ∈ ws) ∧
    (shorter ex r ws).path.length ≤ r.path.length ∧
    ∀ w ∈ ws, ex w.path = true → (shorter ex r ws).path.length ≤ w.path.length
  | [], r, h => ⟨h, .inl rfl, Nat.le_refl _, by simp⟩
  | w :: ws, r, h => by
    rw [shorter]
    split
    · rename_i hw
      obtain ⟨h1, h2, h3, h4⟩ := shorter_spec ex ws w hw.2
      refine ⟨h1, .inr ?_, by omega, ?_⟩
      · rcases h2 with h2 | h2
        · rw [h2]; exact List.mem_cons_self
        · exact List.mem_cons_of_mem _ h2
      · intro v hv he
        rcases List.mem_cons.1 hv with rfl | hv
        · exact h3
        · exact h4 v hv he
    · rename_i hw
      obtain ⟨h1, h2, h3, h4⟩ := shorter_spec ex ws r h
      refine ⟨h1, h2.imp_right (List.mem_cons_of_mem _), h3, ?_⟩
      intro v hv he
      rcases List.mem_cons.1 hv with rfl | hv
      · have : ¬ v.path.length < r.path.length := fun hl => hw ⟨hl, he⟩
        omega
      · exact h4 v hv he

/-- C71: the settings for the executable are taken from an open folder. If there are folders that exist, it is one of
them, and none of them has a shorter path. -/
theorem C71_root (ex : Path → Bool) (cwd : Folder) (ws : List Folder) (hne : ws ≠ []) :
    rootFolder ex cwd ws ∈ ws ∧
    ∀ w ∈ ws, ex w.path = true → ex (rootFolder ex cwd ws).path = true ∧
      (rootFolder ex cwd ws).path.length ≤ w.path.length := by
  match ws with
  | [] => exact absurd rfl hne
  | [w] =>
    refine ⟨List.mem_singleton.2 rfl, fun v hv he => ?_⟩
    rw [List.mem_singleton] at hv
    subst hv
    exact ⟨he, Nat.le_refl _⟩
  | w :: v :: ws =>
    rw [rootFolder]
    · split
      · rename_i r hr
        have hex : ex r.path = true := by simpa using List.find?_some hr
        obtain ⟨h1, h2, -, h4⟩ := shorter_spec ex (w :: v :: ws) r hex
        refine ⟨?_, fun u hu he => ⟨h1, h4 u hu he⟩⟩
        rcases h2 with h2 | h2
        · rw [h2]; exact List.mem_of_find?_eq_some hr
        · exact h2
      · rename_i hr
        refine ⟨List.mem_cons_self, fun u hu he => ?_⟩
        rw [List.find?_eq_none] at hr
        exact absurd he (by simpa using hr u hu)
    · simp

/-! ## C72: configuration for the server -/

/-- C72: the server gets as many values as the client would give it without the extension. -/
theorem C72_length {V : Type} (docs : List Opened) (lookup : String → String → String → V) (parsed : List Nat)
    (items : List Item) (vs : List V) (h1 : parsed.length = items.length) (h2 : vs.length = items.length) :
    ∃ ws, answer docs lookup parsed items (some vs) = some ws ∧ ws.length = items.length := by
  refine ⟨_, rfl, ?_⟩
  simp only [List.length_append, List.length_map, List.length_zip, List.length_drop]
  omega

/-- C72 fails: `vscode.Uri.parse` makes a new object, which is none of the objects of the open documents, and objects are
compared by identity. So the values for the language of a document are never looked up: for all documents and requests
the server gets what it would get without the extension. -/
theorem C72_never_by_language {V : Type} (docs : List Opened) (lookup : String → String → String → V) (parsed : List Nat)
    (items : List Item) (vs : List V) (h1 : parsed.length = items.length) (h2 : vs.length = items.length)
    (fresh : ∀ p ∈ parsed, ∀ d ∈ docs, d.uri ≠ p) : answer docs lookup parsed items (some vs) = some vs := by
  simp only [answer, Option.map_some, Option.some.injEq]
  rw [h1, Nat.min_self, ← h2, List.drop_length, List.append_nil]
  have : ∀ (parsed : List Nat) (items : List Item) (vs : List V), parsed.length = items.length → vs.length = items.length →
      (∀ p ∈ parsed, ∀ d ∈ docs, d.uri ≠ p) →
      (List.zip (List.zip parsed items) vs).map (fun x => answerItem docs lookup x.1.1 x.1.2 x.2) = vs := by
    intro parsed
    induction parsed with
    | nil =>
      intro items vs h1 h2 _
      simp only [List.length_nil] at h1
      rw [← h1] at h2
      rw [List.length_eq_zero_iff.1 h2]
      simp
    | cons p ps ih =>
      intro items vs h1 h2 hf
      match items, vs with
      | [], _ => simp at h1
      | _ :: _, [] => simp at h2
      | i :: is, v :: vs =>
        simp only [List.zip_cons_cons, List.map_cons, List.cons.injEq]
        refine ⟨?_, ih is vs (by simpa using h1) (by simpa using h2) fun q hq => hf q (List.mem_cons_of_mem _ hq)⟩
        have hn : docs.find? (fun d => d.uri == p) = none := by
          rw [List.find?_eq_none]
          intro d hd
          simpa using hf p List.mem_cons_self d hd
        unfold answerItem
        split
        · split
          · rfl
          · rw [hn]
        · rfl
  exact this parsed items vs h1 h2 fresh

/-! ## C73: options of editors -/

/-- What happens after a state. -/
def happenings (norm : String → Path) (tab : Path → Option Nat) (x : Editors) (hs : List Happening) : Editors :=
  hs.foldl (Happening.run norm tab) x

/-- The options of the editor are the given ones. With tabs the user decides how wide a tab is. -/
def TextEditor.Follows (tab : Path → Option Nat) (e : TextEditor) (f : Format) : Prop :=
  e.options.insertSpaces = f.spaces ∧ e.options.indentSize = f.width ∧
  (f.spaces = true → e.options.tabSize = f.width) ∧
  (f.spaces = false → ∀ n, tab e.path = some n → e.options.tabSize = n)

theorem apply_follows (m : Path → Option Format) (tab : Path → Option Nat) (e : TextEditor) (f : Format)
    (h : m e.path = some f) : (applyFormat m tab e).Follows tab f ∧ (applyFormat m tab e).path = e.path := by
  simp only [applyFormat, h, TextEditor.Follows]
  refine ⟨⟨trivial, trivial, fun h => by simp [h], fun h n hn => by simp [h, hn]⟩, trivial⟩

/-- The active editor follows the settings. -/
def Editors.Current (tab : Path → Option Nat) (x : Editors) : Prop :=
  ∀ i f, x.active = some i → x.settings (x.editor i).path = some f → (x.editor i).Follows tab f

theorem applyTo_current (tab : Path → Option Nat) (x : Editors) (i : Nat) (h : x.active = some i) :
    (x.applyTo tab i).Current tab := by
  intro j f hj hf
  have hij : i = j := by
    have : (x.applyTo tab i).active = x.active := rfl
    rw [this, h] at hj
    exact Option.some.inj hj
  subst hij
  simp only [Editors.applyTo, if_true] at hf ⊢
  have hp : (applyFormat x.settings tab (x.editor i)).path = (x.editor i).path := by
    unfold applyFormat
    split <;> rfl
  rw [hp] at hf
  exact (apply_follows x.settings tab _ f hf).1

theorem run_current (norm : String → Path) (tab : Path → Option Nat) (x : Editors) (h : Happening) :
    (h.run norm tab x).Current tab := by
  cases h with
  | notified files =>
    simp only [Happening.run]
    split
    · rename_i i hi
      exact applyTo_current tab _ i hi
    · rename_i hi
      intro i f h1
      rw [hi] at h1
      cases h1
  | activated i =>
    cases i with
    | none =>
      intro i f h1
      cases h1
    | some i => exact applyTo_current tab _ i rfl

theorem setAll_last (norm : String → Path) (p : Path) : ∀ (fs : List (String × Format)) (m : Path → Option Format),
    (∀ x ∈ fs, norm x.1 ≠ p) → setAll norm fs m p = m p
  | [], m, _ => rfl
  | (u, f) :: fs, m, h => by
    rw [setAll, setAll_last norm p fs _ fun x hx => h x (List.mem_cons_of_mem _ hx),
      if_neg (fun hp => h (u, f) List.mem_cons_self hp.symm)]

theorem setAll_found (norm : String → Path) (p : Path) (u : String) (f : Format) (hu : norm u = p)
    (bs : List (String × Format)) (hb : ∀ x ∈ bs, norm x.1 ≠ p) :
    ∀ (as : List (String × Format)) (m : Path → Option Format), setAll norm (as ++ (u, f) :: bs) m p = some f
  | [], m => by
    rw [List.nil_append, setAll, setAll_last norm p bs _ hb, if_pos hu.symm]
  | (v, g) :: as, m => by
    rw [List.cons_append, setAll]
    exact setAll_found norm p u f hu bs hb as _

theorem settings_kept (norm : String → Path) (tab : Path → Option Nat) : ∀ (hs : List Happening) (x : Editors),
    (∀ h ∈ hs, ∃ i, h = .activated i) → (happenings norm tab x hs).settings = x.settings
  | [], x, _ => rfl
  | h :: hs, x, hh => by
    obtain ⟨i, rfl⟩ := hh h List.mem_cons_self
    have := settings_kept norm tab hs (Happening.run norm tab x (.activated i)) fun h hm => hh h (List.mem_cons_of_mem _ hm)
    rw [show happenings norm tab x (.activated i :: hs) = happenings norm tab (Happening.run norm tab x (.activated i)) hs
      from rfl, this]
    cases i <;> rfl

theorem paths_kept (norm : String → Path) (tab : Path → Option Nat) (i : Nat) : ∀ (hs : List Happening) (x : Editors),
    ((happenings norm tab x hs).editor i).path = (x.editor i).path
  | [], x => rfl
  | h :: hs, x => by
    have ha : ∀ (y : Editors) j, ((y.applyTo tab j).editor i).path = (y.editor i).path := by
      intro y j
      simp only [Editors.applyTo]
      split
      · rename_i hj
        subst hj
        unfold applyFormat
        split <;> rfl
      · rfl
    rw [show happenings norm tab x (h :: hs) = happenings norm tab (Happening.run norm tab x h) hs from rfl,
      paths_kept norm tab i hs]
    cases h with
    | notified files =>
      simp only [Happening.run]
      split
      · exact ha _ _
      · rfl
    | activated j =>
      cases j with
      | none => rfl
      | some j => exact ha _ _

/-- C73: the active editor has the settings that the server has sent for its file in its last message, whatever else has
happened before and since then. -/
theorem C73_active (norm : String → Path) (tab : Path → Option Nat) (x : Editors) (before after : List Happening)
    (as bs : List (String × Format)) (u : String) (f : Format) (i : Nat)
    (hafter : ∀ h ∈ after, ∃ j, h = .activated j)
    (hi : (happenings norm tab x (before ++ .notified (as ++ (u, f) :: bs) :: after)).active = some i)
    (hu : norm u = (x.editor i).path) (hb : ∀ b ∈ bs, norm b.1 ≠ (x.editor i).path) :
    ((happenings norm tab x (before ++ .notified (as ++ (u, f) :: bs) :: after)).editor i).Follows tab f := by
  have hcur : ∀ (hs : List Happening) (y : Editors), y.Current tab → (happenings norm tab y hs).Current tab := by
    intro hs
    induction hs with
    | nil => intro y hy; exact hy
    | cons h hs ih => intro y hy; exact ih _ (run_current norm tab y h)
  have hsplit : happenings norm tab x (before ++ .notified (as ++ (u, f) :: bs) :: after) =
      happenings norm tab (Happening.run norm tab (happenings norm tab x before) (.notified (as ++ (u, f) :: bs))) after := by
    simp [happenings, List.foldl_append]
  have hc := hcur after _ (run_current norm tab (happenings norm tab x before) (.notified (as ++ (u, f) :: bs)))
  rw [← hsplit] at hc
  refine hc i f hi ?_
  rw [paths_kept, hsplit, settings_kept norm tab after _ hafter]
  have : (Happening.run norm tab (happenings norm tab x before) (.notified (as ++ (u, f) :: bs))).settings =
      setAll norm (as ++ (u, f) :: bs) fun _ => none := by
    simp only [Happening.run]
    split <;> rfl
  rw [this]
  exact setAll_found norm _ u f hu bs hb as _

/-- C73: an editor whose file the server has never mentioned keeps its options. -/
theorem C73_untouched (norm : String → Path) (tab : Path → Option Nat) (x : Editors) (i : Nat)
    (h0 : x.settings (x.editor i).path = none) (hs : List Happening)
    (h : ∀ files, Happening.notified files ∈ hs → ∀ a ∈ files, norm a.1 ≠ (x.editor i).path) :
    (happenings norm tab x hs).editor i = x.editor i := by
  induction hs generalizing x with
  | nil => rfl
  | cons a hs ih =>
    have ha : ∀ (y : Editors) j, y.settings (y.editor i).path = none → (y.applyTo tab j).editor i = y.editor i := by
      intro y j hy
      simp only [Editors.applyTo]
      split
      · rename_i hj
        subst hj
        simp [applyFormat, hy]
      · rfl
    have hstep : (a.run norm tab x).editor i = x.editor i ∧ (a.run norm tab x).settings (x.editor i).path = none := by
      cases a with
      | notified files =>
        have hn : setAll norm files (fun _ => none) (x.editor i).path = none :=
          setAll_last norm _ files _ (h files List.mem_cons_self)
        simp only [Happening.run]
        split
        · exact ⟨ha _ _ hn, hn⟩
        · exact ⟨rfl, hn⟩
      | activated j =>
        cases j with
        | none => exact ⟨rfl, h0⟩
        | some j => exact ⟨ha { x with active := some j } j h0, h0⟩
    rw [show happenings norm tab x (a :: hs) = happenings norm tab (a.run norm tab x) hs from rfl]
    rw [ih (a.run norm tab x) (by rw [hstep.1]; exact hstep.2)
      (by rw [hstep.1]; exact fun files hf => h files (List.mem_cons_of_mem _ hf)), hstep.1]

/-- C73 fails on Windows: there `normalizePath` gives paths with backslashes only, while `document.uri.path` has slashes.
So no settings are ever found, whatever the server sends. -/
theorem C73_windows (norm : String → Path) (tab : Path → Option Nat) (hnorm : ∀ u, '/' ∉ (norm u).toList)
    (x : Editors) (h0 : x.settings = fun _ => none) (hx : ∀ i, '/' ∈ (x.editor i).path.toList) (hs : List Happening) (i : Nat) :
    (happenings norm tab x hs).editor i = x.editor i :=
  C73_untouched norm tab x i (by rw [h0]) hs fun _ _ a _ hp => hnorm a.1 (hp ▸ hx i)

/-! ## C74: log levels -/

open Lsp in
/-- C74: all log levels but one that the editor offers are understood by the server, which then takes over the setting
for the synchronisation of file settings. -/
theorem C74_levels_partial (level : String) (h : level ∈ offeredLogLevels) (hw : level ≠ "warning") (deps : Json)
    (hd : deps = .null ∨ ∃ s, deps = .str s) (sync : Bool) :
    globalConfig [.str level, deps, .bool sync] = some sync := by
  have hl : level ∈ logLevels := by
    simp only [offeredLogLevels, List.mem_cons, List.not_mem_nil, or_false] at h
    rcases h with rfl | rfl | rfl | rfl | rfl
    · decide
    · exact absurd rfl hw
    · decide
    · decide
    · decide
  rcases hd with rfl | ⟨s, rfl⟩ <;> simp [globalConfig, optField, Json.logLevel?, hl, Json.bool?, Json.str?]

open Lsp in
/-- C74 fails for `"warning"`, which the server calls `"warn"`: with this value the server takes over none of the settings
that come with it, so that the synchronisation of file settings is not turned on. -/
theorem C74_warning {T : Tools} (env : Env) (deps : Json) (sync : Bool) (s : State T) :
    "warning" ∈ offeredLogLevels ∧
    updateGlobalConfig env [.str "warning", deps, .bool sync] s = (s, false, []) := by
  refine ⟨by decide, ?_⟩
  have : globalConfig [.str "warning", deps, .bool sync] = none := by
    simp [globalConfig, optField, Json.logLevel?, logLevels]
  unfold updateGlobalConfig
  split
  · rfl
  · rw [this]

/-! ## Example -/

namespace Ex

/-- Two folders and changed documents. -/
def documents : List Document :=
  [⟨"/r/pkg/R/a.R", false, true, false, true⟩, ⟨"/r/pkg/R/b.R", false, false, false, true⟩,
    ⟨"Untitled-1", false, true, true, false⟩, ⟨"/r/other/c.R", false, true, false, false⟩]

/-- Two editors with tabs of width 8; the user has set no tab size. -/
def editors : Editors :=
  { editor := fun i => ⟨if i = 0 then "/r/a.R" else "/r/b.R", ⟨false, 8, 8⟩⟩, active := some 0 }

end Ex

open Ex

example : formatFolder ⟨"/r/pkg", "pkg"⟩ "air" documents true =
    [.save ⟨"/r/pkg/R/a.R", false, true, false, true⟩, .spawn "air" ["format", "/r/pkg", "--no-color"] "/r/pkg"] := by decide
example : (documents[0]).Pending ⟨"/r/pkg", "pkg"⟩ :=
  ⟨rfl, rfl, rfl, .inr ⟨"R/a.R".toList, by decide⟩⟩
example : rootFolder (fun p => p != "/x") ⟨"/", ""⟩ [⟨"/home/r/pkg", "pkg"⟩, ⟨"/x", "x"⟩, ⟨"/home/r", "r"⟩] = ⟨"/home/r", "r"⟩ ∧
    selectFolder (some 1) [⟨"/a/pkg", "pkg"⟩, ⟨"/b/doc", "doc"⟩] = some ⟨"/b/doc", "doc"⟩ := by decide
example : answer [⟨0, "file:///a.R", "r"⟩] (fun _ l s => l ++ ":" ++ s) [1, 2]
    [⟨some "file:///a.R", some "editor.tabSize"⟩, ⟨none, some "air.logLevel"⟩] (some ["4", "null"]) = some ["4", "null"] ∧
    answer [⟨0, "file:///a.R", "r"⟩] (fun _ l s => l ++ ":" ++ s) [0, 2]
    [⟨some "file:///a.R", some "editor.tabSize"⟩, ⟨none, some "air.logLevel"⟩] (some ["4", "null"]) =
      some ["r:editor.tabSize", "null"] := by decide
example : ((happenings id (fun _ => some 3) editors [.notified [("/r/a.R", ⟨true, 2⟩), ("/r/b.R", ⟨false, 6⟩)],
    .activated none, .activated (some 1)]).editor 1).options = ⟨false, 6, 3⟩ ∧
    ((happenings id (fun _ => some 3) editors [.notified [("/r/a.R", ⟨true, 2⟩)]]).editor 0).options = ⟨true, 2, 2⟩ := by decide

end Verif.Editor
