import Verif.Lemmas.Lsp

/-!
# C12, C24, C50: the documents held by the server

Histories are sequences of events handled by the main loop without a panic (`Runs`); documents are
addressed by their URL, whatever happens to the other documents in between.
-/

namespace Verif.Lsp

open Verif.TextChanges Verif.LineEnding Verif.LineIndex

variable {T : Tools}

/-- The server before the first message. -/
def start : State T := {}

/-! ## Properties of single documents -/

theorem new_spec {text : List Char} {version : Option Int} {enc : Encoding} {d : Document T}
    (h : Document.new (T := T) text version enc = some d) :
    d.contents = replaceCrlf '\r' '\n' text ∧ d.version = version ∧ d.encoding = enc ∧
    d.index = LineIndex.new d.contents ∧ d.parse = T.parse d.contents ∧
    d.endings = infer '\r' '\n' text := by
  unfold Document.new at h
  simp only [Option.map_eq_some_iff] at h
  obtain ⟨c, hc, rfl⟩ := h
  refine ⟨?_, rfl, rfl, rfl, rfl, rfl⟩
  cases hi : infer '\r' '\n' text with
  | lf =>
    rw [hi] at hc
    cases hc
    unfold infer at hi
    split at hi
    · cases hi
    · rename_i hf
      exact (findCrlf_none _ _ _ hf).symm
  | crlf =>
    rw [hi] at hc
    simp only [normalize_eq', Option.some.injEq] at hc
    exact hc.symm

theorem change_spec {d d' : Document T} {changes : List Change} {v : Int}
    (h : d.onDidChange changes v = some d') :
    (∃ idx, applyTextChanges d.encoding d.contents changes d.index = some (d'.contents, idx)) ∧
    d'.version = some v ∧ (∀ old, d.version = some old → old ≤ v) ∧ d'.encoding = d.encoding ∧
    d'.index = LineIndex.new d'.contents ∧ d'.parse = T.parse d'.contents ∧
    d'.endings = d.endings := by
  unfold Document.onDidChange at h
  split at h
  · cases h
  · rename_i hv
    rw [Option.map_eq_some_iff] at h
    obtain ⟨⟨c, idx⟩, hc, rfl⟩ := h
    refine ⟨⟨idx, hc⟩, rfl, ?_, rfl, rfl, rfl, rfl⟩
    intro old ho
    rw [ho] at hv
    simpa using hv

/-! ## C50: index, syntax tree and encoding belong to the text -/

/-- What a document derives from its text is up to date. -/
structure Coherent (d : Document T) : Prop where
  index : d.index = LineIndex.new d.contents
  parse : d.parse = T.parse d.contents

theorem Coherent.of_core {d : Document T} (h : Coherent d.core) : Coherent d := ⟨h.1, h.2⟩

/-- An invariant of documents that does not concern client options and holds after opening and changes
holds for all documents at any time. -/
theorem invariant {P : Document T → Prop} (hcore : ∀ d : Document T, P d.core ↔ P d)
    {es : List (Env × Event)} {s : State T} {rs : List (Nat × Answer Response)} {os : List Out}
    (h : Runs start es s rs os)
    (hopen : ∀ env u version text d, (env, Event.notification (.didOpen u version text)) ∈ es →
      ∀ enc, Document.new (T := T) text (some version) enc = some d → P d)
    (hchange : ∀ env u version changes d d',
      (env, Event.notification (.didChange u version changes)) ∈ es → P d →
      d.onDidChange changes version = some d' → P d') (u : Url) (d : Document T)
    (hd : s.doc u = some d) : P d := by
  induction h generalizing d with
  | nil => simp [State.doc, start] at hd
  | @snoc es s' rs os env e t hs h ih =>
    have ih' := fun d => ih (fun env u version text d hm => hopen env u version text d (by simp [hm]))
      (fun env u version changes d d' hm => hchange env u version changes d d' (by simp [hm])) d
    have h1 := (handleEvent_spec h).2 u
    rw [hd, Option.map_some] at h1
    generalize ho : (s'.doc u).map Document.core = old at h1
    have hold : ∀ x, old = some x → P x := by
      intro x hx
      rw [hx, Option.map_eq_some_iff] at ho
      obtain ⟨y, hy, rfl⟩ := ho
      exact (hcore y).2 (ih' y hy)
    generalize hn : some d.core = new at h1
    cases h1 with
    | opened h2 =>
      have h3 := Option.some.inj hn
      have := hopen env u _ _ _ (by simp) _ h2
      rw [← hcore] at this
      rw [← hcore, h3]; exact this
    | changed h2 =>
      have h3 := Option.some.inj hn
      have := hchange env u _ _ _ _ (by simp) (hold _ rfl) h2
      rw [← hcore] at this
      rw [← hcore, h3]; exact this
    | changedUnknown => cases hn
    | closed => cases hn
    | other _ _ _ => exact (hcore d).1 (hold _ hn.symm)

/-- C50: at any time, for every open document, the line index (used to translate all positions) and the
syntax tree (used for formatting and error checks) are those of its current text. -/
theorem C50_coherent {es : List (Env × Event)} {s : State T} {rs : List (Nat × Answer Response)}
    {os : List Out} (h : Runs start es s rs os) (u : Url) (d : Document T) (hd : s.doc u = some d) :
    d.index = LineIndex.new d.contents ∧ d.parse = T.parse d.contents := by
  refine invariant (P := fun d => d.index = LineIndex.new d.contents ∧ d.parse = T.parse d.contents)
    (fun d => Iff.rfl) h ?_ ?_ u d hd
  · intro env u version text d _ enc h
    have := new_spec h
    exact ⟨this.2.2.2.1, this.2.2.2.2.1⟩
  · intro env u version changes d d' _ _ h
    have := change_spec h
    exact ⟨this.2.2.2.2.1, this.2.2.2.2.2.1⟩

/-! ## C12: line ends -/

theorem replaceRange_mem {t text t' : List Char} {s e : Nat}
    (h : Text.replaceRange t s e text = some t') {c : Char} (hc : c ∈ t') : c ∈ t ∨ c ∈ text := by
  obtain ⟨a, d, b, rfl, _, _, rfl⟩ := Text.replaceRange_some h
  simp only [List.mem_append] at hc ⊢
  rcases hc with (h | h) | h
  · exact .inl (.inl (.inl h))
  · exact .inr h
  · exact .inl (.inr h)

theorem changesGo_no_cr (enc : Encoding) (changes : List Change) :
    ∀ (t : List Char) (idx : Index) (l : Nat) (r : List Char × Index), '\r' ∉ t →
      (∀ c ∈ changes, NoLoneCr c.text) → changesGo enc changes t idx l = some r → '\r' ∉ r.1 := by
  induction changes with
  | nil => intro t idx l r ht _ h; cases h; exact ht
  | cons c rest ih =>
    intro t idx l r ht hc h
    simp only [changesGo, normalize_eq'] at h
    split at h
    · cases h
    · split at h
      · cases h
      · split at h
        · cases h
        · rename_i t' hr
          refine ih _ _ _ _ ?_ (fun c hc' => hc c (by simp [hc'])) h
          intro hm
          rcases replaceRange_mem hr hm with h | h
          · exact ht h
          · exact replaceCrlf_no_cr _ (hc c (by simp)) h

theorem lastFull_mem {changes rest : List Change} {text : List Char}
    (h : lastFull changes = some (text, rest)) :
    (∃ c ∈ changes, c.text = text) ∧ ∀ c ∈ rest, c ∈ changes := by
  induction changes with
  | nil => cases h
  | cons c cs ih =>
    simp only [lastFull] at h
    split at h
    · rename_i r hr
      cases h
      obtain ⟨⟨x, h1, h2⟩, h3⟩ := ih hr
      exact ⟨⟨x, by simp [h1], h2⟩, fun c hc => by simp [h3 c hc]⟩
    · split at h
      · cases h
        exact ⟨⟨c, by simp, rfl⟩, fun c hc => by simp [hc]⟩
      · cases h

/-- C12: if the client never sends a CR that is not followed by LF, the text held by the server
never contains a CR, after any history. Missing: lone CRs, for which the claim is false, see below. -/
theorem C12_lf_only_partial {es : List (Env × Event)} {s : State T}
    {rs : List (Nat × Answer Response)} {os : List Out} (h : Runs start es s rs os)
    (hopen : ∀ env u version text, (env, Event.notification (.didOpen u version text)) ∈ es →
      NoLoneCr text)
    (hchange : ∀ env u version changes, (env, Event.notification (.didChange u version changes)) ∈ es →
      ∀ c ∈ changes, NoLoneCr c.text) (u : Url) (d : Document T) (hd : s.doc u = some d) :
    '\r' ∉ d.contents := by
  refine invariant (P := fun d => '\r' ∉ d.contents) (fun d => Iff.rfl) h ?_ ?_ u d hd
  · intro env u version text d hm enc h
    rw [(new_spec h).1]
    exact replaceCrlf_no_cr _ (hopen env u version text hm)
  · intro env u version changes d d' hm hP h
    obtain ⟨idx, h1⟩ := (change_spec h).1
    have hc := hchange env u version changes hm
    simp only [applyTextChanges] at h1
    split at h1
    · rename_i text inc hl
      obtain ⟨⟨c, hc1, rfl⟩, h2⟩ := lastFull_mem hl
      simp only [normalize_eq'] at h1
      exact changesGo_no_cr _ _ _ _ _ _ (replaceCrlf_no_cr _ (hc c hc1))
        (fun c hc' => hc c (h2 c hc')) h1
    · exact changesGo_no_cr _ _ _ _ _ _ hP hc h1

/-- Any tools; the parser keeps the text, nothing is ever changed. -/
def plainTools : Tools where
  Parse := List Char
  parse := id
  hasError _ := false
  format _ t := some t
  diff _ _ := []
  formatRange _ _ _ := some none
  view _ t _ := some (String.ofList t)
  windows := false
  compile _ _ := none

/-- Nothing on disk, the client answers nothing. -/
def plainEnv : Env where
  disk := { isFile := fun _ => false, readToml := fun _ => none }
  config _ := none
  register := true
  order l := l
  perm l := .refl l

/-- A document in the editor. -/
def exUrl (name : String) : Url :=
  { text := "file:///w/" ++ name, scheme := "file", filePath := some ["/", "w", name] }

/-- The text of a document after a history, if nothing panicked. -/
def textAfter (es : List Event) (u : Url) : Option (List Char) :=
  (es.foldlM (fun s e => (handleEvent plainEnv e s).map Tick.state) (start (T := plainTools))).bind
    fun s => (s.doc u).map Document.contents

def insertAt (line character : Nat) (text : String) : Change :=
  { range := some ⟨⟨line, character⟩, ⟨line, character⟩⟩, text := text.toList }

/-- A history that meets the hypotheses of `C12_lf_only_partial`: a CR LF document is opened and a CR LF
pair is inserted. -/
example : textAfter [.notification (.didOpen (exUrl "a.R") 1 "x\r\ny".toList),
    .notification (.didChange (exUrl "a.R") 2 [insertAt 1 1 "\r\nz"])] (exUrl "a.R") =
    some "x\ny\nz".toList := by decide

/-- C12 is false in general: opening a document that contains CR CR LF leaves a CR LF pair, and so does
inserting a CR in front of an LF. -/
theorem C12_crlf_remains :
    textAfter [.notification (.didOpen (exUrl "a.R") 1 "x\r\r\ny".toList)] (exUrl "a.R") =
      some "x\r\ny".toList ∧
    textAfter [.notification (.didOpen (exUrl "a.R") 1 "x\ny".toList),
      .notification (.didChange (exUrl "a.R") 2 [insertAt 0 1 "\r"])] (exUrl "a.R") =
      some "x\r\ny".toList := by decide

/-! ## C24: the documents follow the history -/

/-- The text and version a client that keeps to the protocol gave to the document `u`, and the
negotiated encoding, after a history of events; `none` is a document that is not open. Changes refer
to text positions (`Steps`), no line index is involved. Other events do not matter. -/
inductive Buffer (u : Url) : List Event → Encoding → Option (Encoding × List Char × Int) → Prop
  | nil : Buffer u [] .utf16 none
  | initialize {es enc o} (id : Nat) (folders : List Url) (c : Capabilities) (h : Buffer u es enc o) :
      Buffer u (es ++ [.request id (.initialize folders c)]) (if c.utf8 then .utf8 else .utf16) o
  | opened {es enc o} (version : Int) (text : List Char) (h : Buffer u es enc o) :
      Buffer u (es ++ [.notification (.didOpen u version text)]) enc
        (some (enc, replaceCrlf '\r' '\n' text, version))
  | changed {es enc enc' t v t'} (version : Int) (changes : List Change)
      (h : Buffer u es enc (some (enc', t, v))) (hs : Steps enc' t changes t') :
      Buffer u (es ++ [.notification (.didChange u version changes)]) enc (some (enc', t', version))
  | changedUnknown {es enc} (version : Int) (changes : List Change) (h : Buffer u es enc none) :
      Buffer u (es ++ [.notification (.didChange u version changes)]) enc none
  | closed {es enc o} (h : Buffer u es enc o) :
      Buffer u (es ++ [.notification (.didClose u)]) enc none
  | other {es enc o} (e : Event) (h : Buffer u es enc o)
      (h0 : ∀ id folders c, e ≠ .request id (.initialize folders c))
      (h1 : ∀ version text, e ≠ .notification (.didOpen u version text))
      (h2 : ∀ version changes, e ≠ .notification (.didChange u version changes))
      (h3 : e ≠ .notification (.didClose u)) : Buffer u (es ++ [e]) enc o

theorem runs_snoc_inv {s0 s : State T} {es : List (Env × Event)} {rs : List (Nat × Answer Response)}
    {os : List Out} (h : Runs s0 es s rs os) {hist : List Event} {e : Event}
    (he : es.map Prod.snd = hist ++ [e]) :
    ∃ es' env s' rs' os' t, Runs s0 es' s' rs' os' ∧ es'.map Prod.snd = hist ∧
      handleEvent env e s' = some t ∧ t.state = s := by
  cases h with
  | nil => simp at he
  | @snoc es s' rs os env e' t hs h =>
    simp only [List.map_append, List.map_cons, List.map_nil] at he
    obtain ⟨h1, h2⟩ := List.append_inj' he rfl
    simp only [List.cons.injEq, and_true] at h2
    subst h2
    exact ⟨_, _, _, _, _, _, hs, h1, h, rfl⟩

/-- C24: after every history, the text and version of a document are those of the latest open followed
by the later changes; it is available iff it was opened and not closed since. Opening, changing and
closing other documents, requests, and configuration changes do not matter. -/
theorem C24_store {es : List (Env × Event)} {s : State T} {rs : List (Nat × Answer Response)}
    {os : List Out} (h : Runs start es s rs os) {u : Url} {enc : Encoding}
    {o : Option (Encoding × List Char × Int)} (hb : Buffer u (es.map Prod.snd) enc o) :
    s.encoding = enc ∧
    (s.doc u).map (fun d => (d.encoding, d.contents, d.version)) =
      o.map (fun x => (x.1, x.2.1, some x.2.2)) := by
  have hview : ∀ o : Option (Document T),
      o.map (fun d => (d.encoding, d.contents, d.version)) =
        (o.map Document.core).map (fun d => (d.encoding, d.contents, d.version)) := by
    intro o; cases o <;> rfl
  generalize hh : es.map Prod.snd = hist at hb
  induction hb generalizing es s rs os with
  | nil =>
    cases h with
    | nil => exact ⟨rfl, rfl⟩
    | snoc => simp at hh
  | «initialize» id folders c hb ih =>
    obtain ⟨es', env, s', rs', os', t, hr, he, ht, rfl⟩ := runs_snoc_inv h hh
    obtain ⟨h1, h2⟩ := ih hr he
    obtain ⟨h3, h4⟩ := handleEvent_spec ht
    refine ⟨h3, ?_⟩
    have h5 := h4 u
    rw [hview] at h2 ⊢
    generalize (s'.doc u).map Document.core = a at h5 h2
    generalize (t.state.doc u).map Document.core = b at h5
    cases h5 with
    | other => exact h2
  | opened version text hb ih =>
    obtain ⟨es', env, s', rs', os', t, hr, he, ht, rfl⟩ := runs_snoc_inv h hh
    obtain ⟨h1, h2⟩ := ih hr he
    obtain ⟨h3, h4⟩ := handleEvent_spec ht
    refine ⟨h3.trans h1, ?_⟩
    have h5 := h4 u
    rw [hview] at h2 ⊢
    generalize (s'.doc u).map Document.core = a at h5 h2
    generalize (t.state.doc u).map Document.core = b at h5
    cases h5 with
    | opened h6 =>
      obtain ⟨h7, h8, h9, _⟩ := new_spec h6
      simp [Document.core, h7, h8, h9, h1]
    | other h6 => exact absurd rfl (h6 _ _)
  | changed version changes hb hs ih =>
    obtain ⟨es', env, s', rs', os', t, hr, he, ht, rfl⟩ := runs_snoc_inv h hh
    obtain ⟨h1, h2⟩ := ih hr he
    obtain ⟨h3, h4⟩ := handleEvent_spec ht
    refine ⟨h3.trans h1, ?_⟩
    have h5 := h4 u
    obtain ⟨d, hd, h2⟩ := Option.map_eq_some_iff.1 h2
    have hidx := C50_coherent hr u d hd
    rw [hview]
    rw [hd] at h5
    simp only [Option.map_some] at h5
    generalize hx : d.core = x at h5
    generalize (t.state.doc u).map Document.core = b at h5
    cases h5 with
    | changed h6 =>
      obtain ⟨⟨idx, h7⟩, h8, _, h9, _⟩ := change_spec h6
      rename_i d0 d1
      subst hx
      simp only [Prod.mk.injEq] at h2
      obtain ⟨ha, hb, hc⟩ := h2
      obtain ⟨idx', h10⟩ := C09_sequential _ _ _ _ hs
      rw [show d.core.encoding = d.encoding from rfl, show d.core.contents = d.contents from rfl,
        show d.core.index = d.index from rfl, hidx.1, ha, hb, h10] at h7
      simp only [Option.some.injEq, Prod.mk.injEq] at h7
      simp [Document.core, h8, h9, ← h7.1, ← ha]
    | other _ h6 => exact absurd rfl (h6 _ _)
  | changedUnknown version changes hb ih =>
    obtain ⟨es', env, s', rs', os', t, hr, he, ht, rfl⟩ := runs_snoc_inv h hh
    obtain ⟨h1, h2⟩ := ih hr he
    obtain ⟨h3, h4⟩ := handleEvent_spec ht
    refine ⟨h3.trans h1, ?_⟩
    have h5 := h4 u
    rw [hview] at h2 ⊢
    generalize (s'.doc u).map Document.core = a at h5 h2
    generalize (t.state.doc u).map Document.core = b at h5
    cases h5 with
    | changed => simp at h2
    | changedUnknown => rfl
    | other _ h6 => exact absurd rfl (h6 _ _)
  | closed hb ih =>
    obtain ⟨es', env, s', rs', os', t, hr, he, ht, rfl⟩ := runs_snoc_inv h hh
    obtain ⟨h1, h2⟩ := ih hr he
    obtain ⟨h3, h4⟩ := handleEvent_spec ht
    refine ⟨h3.trans h1, ?_⟩
    have h5 := h4 u
    rw [hview] at h2 ⊢
    generalize (s'.doc u).map Document.core = a at h5 h2
    generalize (t.state.doc u).map Document.core = b at h5
    cases h5 with
    | closed => rfl
    | other _ _ h6 => exact absurd rfl h6
  | other e hb hi ho hc hcl ih =>
    obtain ⟨es', env, s', rs', os', t, hr, he, ht, rfl⟩ := runs_snoc_inv h hh
    obtain ⟨h1, h2⟩ := ih hr he
    obtain ⟨h3, h4⟩ := handleEvent_spec ht
    refine ⟨?_, ?_⟩
    · rw [h3, ← h1]
      unfold encodingAfter
      split
      · exact absurd rfl (hi _ _ _)
      · rfl
    have h5 := h4 u
    rw [hview] at h2 ⊢
    generalize (s'.doc u).map Document.core = a at h5 h2
    generalize (t.state.doc u).map Document.core = b at h5
    cases h5 with
    | opened h6 => exact absurd rfl (ho _ _)
    | changed h6 => exact absurd rfl (hc _ _)
    | changedUnknown => exact absurd rfl (hc _ _)
    | closed => exact absurd rfl hcl
    | other => exact h2

/-- The buffer of the editor for the document `u` after a history: what it sends on opening, then what
becomes of it by the changes it sends (positions by the protocol's definition of lines). -/
inductive EditorBuffer (u : Url) : List Event → Encoding → Option (Encoding × List Char) → Prop
  | nil : EditorBuffer u [] .utf16 none
  | initialize {es enc o} (id : Nat) (folders : List Url) (c : Capabilities)
      (h : EditorBuffer u es enc o) :
      EditorBuffer u (es ++ [.request id (.initialize folders c)])
        (if c.utf8 then .utf8 else .utf16) o
  | opened {es enc o} (version : Int) (text : List Char) (h : EditorBuffer u es enc o)
      (hcr : NoLoneCr text) :
      EditorBuffer u (es ++ [.notification (.didOpen u version text)]) enc (some (enc, text))
  | changed {es enc enc' b b'} (version : Int) (changes : List Change)
      (h : EditorBuffer u es enc (some (enc', b))) (hs : LspSteps enc' b changes b')
      (hcr : ∀ c ∈ changes, NoLoneCr c.text) :
      EditorBuffer u (es ++ [.notification (.didChange u version changes)]) enc (some (enc', b'))
  | closed {es enc o} (h : EditorBuffer u es enc o) :
      EditorBuffer u (es ++ [.notification (.didClose u)]) enc none
  | other {es enc o} (e : Event) (h : EditorBuffer u es enc o)
      (h0 : ∀ id folders c, e ≠ .request id (.initialize folders c))
      (h1 : ∀ version text, e ≠ .notification (.didOpen u version text))
      (h2 : ∀ version changes, e ≠ .notification (.didChange u version changes))
      (h3 : e ≠ .notification (.didClose u)) : EditorBuffer u (es ++ [e]) enc o

/-- C24: the server's text is the editor's buffer with LF line ends, after every history in which the
editor sends no CR without LF. -/
theorem C24_editor {es : List (Env × Event)} {s : State T} {rs : List (Nat × Answer Response)}
    {os : List Out} (h : Runs start es s rs os) {u : Url} {enc : Encoding}
    {o : Option (Encoding × List Char)} (hb : EditorBuffer u (es.map Prod.snd) enc o) :
    (s.doc u).map (fun d => (d.encoding, d.contents)) =
      o.map (fun x => (x.1, replaceCrlf '\r' '\n' x.2)) := by
  have key : ∀ {hist enc o}, EditorBuffer u hist enc o →
      ∃ o', Buffer u hist enc o' ∧
        o'.map (fun x => (x.1, x.2.1)) = o.map (fun x => (x.1, replaceCrlf '\r' '\n' x.2)) ∧
        ∀ x, o = some x → NoLoneCr x.2 := by
    intro hist enc o hb
    induction hb with
    | nil => exact ⟨none, .nil, rfl, by simp⟩
    | «initialize» id folders c h ih =>
      obtain ⟨o', h1, h2, h3⟩ := ih
      exact ⟨o', .initialize id folders c h1, h2, h3⟩
    | opened version text h hcr ih =>
      obtain ⟨o', h1, h2, h3⟩ := ih
      refine ⟨_, .opened version text h1, rfl, ?_⟩
      rintro x ⟨⟩
      exact hcr
    | changed version changes h hs hcr ih =>
      obtain ⟨o', h1, h2, h3⟩ := ih
      simp only [Option.map_some, Option.map_eq_some_iff, Prod.mk.injEq] at h2
      obtain ⟨⟨e0, t0, v0⟩, rfl, h4, h5⟩ := h2
      simp only at h4 h5
      subst h4 h5
      obtain ⟨h6, h7⟩ := hs.steps (h3 _ rfl) hcr
      refine ⟨_, .changed version changes h1 h6, rfl, ?_⟩
      rintro x ⟨⟩
      exact h7
    | closed h ih =>
      obtain ⟨o', h1, h2, h3⟩ := ih
      exact ⟨_, .closed h1, rfl, by simp⟩
    | other e h h0 h1 h2 h3 ih =>
      obtain ⟨o', h4, h5, h6⟩ := ih
      exact ⟨_, .other e h4 h0 h1 h2 h3, h5, h6⟩
  obtain ⟨o', h1, h2, _⟩ := key hb
  have h3 := (C24_store h h1).2
  rw [← h2]
  have : (s.doc u).map (fun d => (d.encoding, d.contents)) =
      ((s.doc u).map (fun d => (d.encoding, d.contents, d.version))).map (fun x => (x.1, x.2.1)) := by
    rw [Option.map_map]; rfl
  rw [this, h3, Option.map_map]
  rfl

/-- C24: whether a document is available depends on openings and closings only, for arbitrary
histories (also with changes that make no sense but do not crash the server). -/
def openAfter (u : Url) : List Event → Bool :=
  List.foldl (fun b e => match e with
    | .notification (.didOpen v _ _) => if v = u then true else b
    | .notification (.didClose v) => if v = u then false else b
    | _ => b) false

theorem C24_available {es : List (Env × Event)} {s : State T} {rs : List (Nat × Answer Response)}
    {os : List Out} (h : Runs start es s rs os) (u : Url) :
    (s.doc u).isSome = openAfter u (es.map Prod.snd) := by
  induction h with
  | nil => rfl
  | @snoc es s' rs os env e t hs h ih =>
    have h1 := (handleEvent_spec h).2 u
    have h2 : ∀ o : Option (Document T), o.isSome = (o.map Document.core).isSome := by
      intro o; cases o <;> rfl
    rw [List.map_append, openAfter, List.foldl_append, ← openAfter, ← ih, h2, h2 (s'.doc u)]
    generalize (s'.doc u).map Document.core = a at h1
    generalize (t.state.doc u).map Document.core = b at h1
    cases h1 with
    | opened => simp
    | changed => simp
    | changedUnknown => simp
    | closed => simp
    | other h1 h2 h3 =>
      simp only [List.map_cons, List.map_nil, List.foldl_cons, List.foldl_nil]
      split
      · rename_i v _ _
        split
        · rename_i hv; subst hv; exact absurd rfl (h1 _ _)
        · rfl
      · rename_i v
        split
        · rename_i hv; subst hv; exact absurd rfl h3
        · rfl
      · rfl

/-- C24: as long as a document is not opened anew, its version never decreases. -/
theorem C24_version {env : Env} {e : Event} {s : State T} {t : Tick T}
    (h : handleEvent env e s = some t) {u : Url} {d d' : Document T} (hd : s.doc u = some d)
    (hd' : t.state.doc u = some d')
    (hopen : ∀ version text, e ≠ .notification (.didOpen u version text)) :
    ∀ old, d.version = some old → ∃ new, d'.version = some new ∧ old ≤ new := by
  intro old ho
  have h1 := (handleEvent_spec h).2 u
  rw [hd, hd', Option.map_some, Option.map_some] at h1
  generalize hx : d.core = x at h1
  generalize hy : d'.core = y at h1
  have e1 : x.version = some old := by rw [← hx]; exact ho
  have e2 : d'.version = y.version := by rw [← hy]; rfl
  cases h1 with
  | opened => exact absurd rfl (hopen _ _)
  | changed h2 =>
    obtain ⟨_, h3, h4, _⟩ := change_spec h2
    exact ⟨_, e2.trans h3, h4 _ e1⟩
  | other => exact ⟨old, e2.trans e1, Int.le_refl _⟩

/-- C24: an event that does not open, change or close `u` leaves everything about `u` (text, index,
tree, version, line ending, encoding) as it is, except for the options of the client. -/
theorem C24_isolated {env : Env} {e : Event} {s : State T} {t : Tick T}
    (h : handleEvent env e s = some t) (u : Url)
    (h1 : ∀ version text, e ≠ .notification (.didOpen u version text))
    (h2 : ∀ version changes, e ≠ .notification (.didChange u version changes))
    (h3 : e ≠ .notification (.didClose u)) :
    (t.state.doc u).map (fun d => (d.contents, d.index, d.endings, d.encoding, d.parse, d.version)) =
      (s.doc u).map (fun d => (d.contents, d.index, d.endings, d.encoding, d.parse, d.version)) := by
  have h4 := (handleEvent_spec h).2 u
  have h5 : ∀ o : Option (Document T),
      o.map (fun d => (d.contents, d.index, d.endings, d.encoding, d.parse, d.version)) =
      (o.map Document.core).map
        (fun d => (d.contents, d.index, d.endings, d.encoding, d.parse, d.version)) := by
    intro o; cases o <;> rfl
  rw [h5, h5 (s.doc u)]
  generalize (s.doc u).map Document.core = a at h4
  generalize (t.state.doc u).map Document.core = b at h4
  cases h4 with
  | opened => exact absurd rfl (h1 _ _)
  | changed => exact absurd rfl (h2 _ _)
  | changedUnknown => exact absurd rfl (h2 _ _)
  | closed => exact absurd rfl h3
  | other => rfl

theorem modifyDoc_unknown {docs : List (Url × Document T)} {u : Url} (h : docs.lookup u = none)
    (f : Document T → Document T) : modifyDoc docs u f = docs := by
  induction docs with
  | nil => rfl
  | cons e docs ih =>
    obtain ⟨w, d⟩ := e
    rw [List.lookup_cons] at h
    by_cases hw : u = w
    · simp [hw] at h
    · have : (u == w) = false := by simp [hw]
      rw [this] at h
      simp only [modifyDoc, List.map_cons] at ih ⊢
      rw [ih h]
      simp [Ne.symm hw]

/-- C24: a request about a document that is not open is answered with an error, and nothing changes;
changing or closing such a document changes nothing. -/
theorem C24_unknown (env : Env) (s : State T) (u : Url) (hu : s.doc u = none) :
    (∀ o, handleRequest env (.formatting u o) s = some (s, none)) ∧
    (∀ o r, handleRequest env (.rangeFormatting u r o) s = some (s, none)) ∧
    (∀ k, handleRequest env (.viewFile u k) s = some (s, none)) ∧
    (∀ v cs, handleNotification env (.didChange u v cs) s = some (s, false, [])) ∧
    handleNotification env (.didClose u) s = some (s, false, []) := by
  have hs : ∀ o, didChangeFormattingOptions u o s = s := by
    intro o
    unfold didChangeFormattingOptions
    rw [modifyDoc_unknown hu]
  refine ⟨?_, ?_, ?_, ?_, ?_⟩
  · intro o
    simp [handleRequest, hs, documentFormatting, formattable, hu]
  · intro o r
    simp [handleRequest, hs, documentRangeFormatting, formattable, hu]
  · intro k
    simp [handleRequest, viewFile, hu]
  · intro v cs
    simp [handleNotification, didChange, hu]
  · simp [handleNotification, didClose, hu]

/-- C24: a change with an older version is not ignored, it ends the server. -/
theorem C24_old_version (env : Env) (s : State T) (u : Url) (d : Document T) (hd : s.doc u = some d)
    (old version : Int) (ho : d.version = some old) (hv : version < old) (changes : List Change) :
    handleEvent env (.notification (.didChange u version changes)) s = none := by
  simp [handleEvent, handleNotification, didChange, hd, Document.onDidChange, ho, hv]

/-- Two documents, interleaved; the first is closed in the end. -/
def exHistory : List Event :=
  [.request 0 (.initialize [] ⟨true, false, false, false⟩),
   .notification (.didOpen (exUrl "a.R") 1 "x\r\ny".toList),
   .notification (.didOpen (exUrl "b.R") 5 "é".toList),
   .notification (.didChange (exUrl "a.R") 2 [insertAt 1 1 "\r\nz"]),
   .notification (.didChange (exUrl "b.R") 6 [insertAt 0 2 "!"]),
   .request 1 (.formatting (exUrl "b.R") ⟨true, 4⟩),
   .notification (.didClose (exUrl "a.R"))]

example : textAfter (exHistory.take 6) (exUrl "a.R") = some "x\ny\nz".toList ∧
    textAfter exHistory (exUrl "a.R") = none ∧
    textAfter exHistory (exUrl "b.R") = some "é!".toList ∧
    openAfter (exUrl "a.R") exHistory = false ∧ openAfter (exUrl "b.R") exHistory = true := by
  decide

/-- The history of `b.R` is one a client that keeps to the protocol can produce. -/
example : Buffer (exUrl "b.R") exHistory .utf8 (some (.utf8, "é!".toList, 6)) := by
  have h0 := Buffer.nil (u := exUrl "b.R")
  have h1 := h0.initialize 0 [] ⟨true, false, false, false⟩
  have h2 := h1.other (.notification (.didOpen (exUrl "a.R") 1 "x\r\ny".toList)) (by simp)
    (by simp [exUrl]) (by simp) (by simp)
  have h3 := h2.opened 5 "é".toList
  have h4 := h3.other (.notification (.didChange (exUrl "a.R") 2 [insertAt 1 1 "\r\nz"])) (by simp)
    (by simp) (by simp [exUrl]) (by simp)
  have h5 := h4.changed (t' := "é!".toList) 6 [insertAt 0 2 "!"]
    (.cons (.incremental "é".toList [] [] "!".toList) (.nil _))
  have h6 := h5.other (.request 1 (.formatting (exUrl "b.R") ⟨true, 4⟩)) (by simp) (by simp) (by simp)
    (by simp)
  exact h6.other (.notification (.didClose (exUrl "a.R"))) (by simp) (by simp) (by simp)
    (by simp [exUrl])

end Verif.Lsp
