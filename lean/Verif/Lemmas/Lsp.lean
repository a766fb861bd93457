import Verif.Model.Lsp
import Verif.Props.TextChanges

/-!
# What handling an event does to the documents
-/

namespace Verif.Lsp

open Verif.TextChanges (Change)
open Verif.LineIndex (Encoding)

variable {T : Tools}

/-! ## The association list -/

theorem lookup_filter_ne (docs : List (Url × Document T)) (u v : Url) :
    (docs.filter fun e => e.1 ≠ u).lookup v = if v = u then none else docs.lookup v := by
  induction docs with
  | nil => simp
  | cons e docs ih =>
    obtain ⟨w, d⟩ := e
    by_cases hw : w = u
    · subst hw
      rw [List.filter_cons_of_neg (by simp), ih]
      by_cases hv : v = w
      · simp [hv]
      · have : (v == w) = false := by simp [hv]
        simp [hv, List.lookup_cons, this]
    · rw [List.filter_cons_of_pos (by simpa using hw)]
      simp only [List.lookup_cons, ih]
      by_cases hv : v = w
      · subst hv; simp [hw]
      · have : (v == w) = false := by simp [hv]
        simp [this]

theorem lookup_insert (docs : List (Url × Document T)) (u v : Url) (d : Document T) :
    (insertDoc docs u d).lookup v = if v = u then some d else docs.lookup v := by
  by_cases hv : v = u
  · subst hv; simp [insertDoc]
  · have : (v == u) = false := by simp [hv]
    simp only [insertDoc, List.lookup_cons, this, lookup_filter_ne, hv, if_false]

theorem lookup_modify (docs : List (Url × Document T)) (u v : Url) (f : Document T → Document T) :
    (modifyDoc docs u f).lookup v = if v = u then (docs.lookup v).map f else docs.lookup v := by
  induction docs with
  | nil => simp [modifyDoc]
  | cons e docs ih =>
    obtain ⟨w, d⟩ := e
    simp only [modifyDoc] at ih
    simp only [modifyDoc, List.map_cons]
    by_cases hw : w = u
    · subst hw
      simp only [if_true, List.lookup_cons]
      by_cases hv : v = w
      · simp [hv]
      · have : (v == w) = false := by simp [hv]
        rw [this]; simpa [hv] using ih
    · simp only [hw, if_false, List.lookup_cons]
      by_cases hv : v = w
      · subst hv; simp [hw]
      · have : (v == w) = false := by simp [hv]
        rw [this]; simpa using ih

/-- A document without the options of the client. -/
def Document.core (d : Document T) : Document T := { d with settings := {} }

/-- The documents at `u` agree up to the options of the client. -/
def SameDoc (docs docs' : List (Url × Document T)) (u : Url) : Prop :=
  (docs'.lookup u).map Document.core = (docs.lookup u).map Document.core

theorem SameDoc.refl (docs : List (Url × Document T)) (u : Url) : SameDoc docs docs u := rfl

theorem SameDoc.trans {a b c : List (Url × Document T)} {u : Url} (h1 : SameDoc a b u)
    (h2 : SameDoc b c u) : SameDoc a c u := Eq.trans h2 h1

theorem sameDoc_modify (docs : List (Url × Document T)) (v u : Url)
    (f : Document T → Document T) (hf : ∀ d, (f d).core = d.core) :
    SameDoc docs (modifyDoc docs v f) u := by
  unfold SameDoc
  rw [lookup_modify]
  split
  · rw [Option.map_map]; congr 1; funext d; exact hf d
  · rfl

theorem sameDoc_updateDocuments (us : List Url) (items : List Json) (docs : List (Url × Document T))
    (u : Url) : SameDoc docs (updateDocumentsConfig us items docs).1 u := by
  induction us generalizing items docs with
  | nil => exact .refl _ _
  | cons v us ih =>
    simp only [updateDocumentsConfig]
    cases documentConfig (items.take 3) with
    | none => exact .refl _ _
    | some c =>
      cases hl : docs.lookup v with
      | none => exact .refl _ _
      | some d =>
        refine SameDoc.trans (sameDoc_modify docs v u (fun d => { d with settings := c }) ?_) (ih _ _)
        exact fun d => rfl

theorem sameDoc_formattingOptions (v : Url) (o : FormattingOptions) (s : State T) (u : Url) :
    SameDoc s.docs (didChangeFormattingOptions v o s).docs u :=
  sameDoc_modify _ _ _ (fun d => { d with settings := { d.settings with
    indentStyle := some (indentStyleFromVsc o.insertSpaces)
    indentWidth := some (indentWidthFromUsize o.tabSize) } }) fun _ => rfl

/-- `s'` is `s` up to the options of the client and the documents. -/
structure SameRest (s s' : State T) : Prop where
  workspaces : s'.workspaces = s.workspaces
  encoding : s'.encoding = s.encoding
  capabilities : s'.capabilities = s.capabilities
  logging : s'.logging = s.logging

theorem updateGlobal_spec (env : Env) (items : List Json) (s : State T) :
    (updateGlobalConfig env items s).1.docs = s.docs ∧
      SameRest s (updateGlobalConfig env items s).1 := by
  unfold updateGlobalConfig
  split
  · exact ⟨rfl, rfl, rfl, rfl, rfl⟩
  · split
    · exact ⟨rfl, rfl, rfl, rfl, rfl⟩
    · exact ⟨rfl, rfl, rfl, rfl, rfl⟩

theorem updateConfig_spec (env : Env) (uris : List Url) (s : State T) :
    (∀ u, SameDoc s.docs (updateConfig env uris s).1.docs u) ∧
      SameRest s (updateConfig env uris s).1 := by
  unfold updateConfig
  split
  · exact ⟨fun u => .refl _ _, rfl, rfl, rfl, rfl⟩
  · simp only
    split
    · exact ⟨fun u => .refl _ _, rfl, rfl, rfl, rfl⟩
    · rename_i configs _
      split
      · exact ⟨fun u => .refl _ _, rfl, rfl, rfl, rfl⟩
      · have h := sameDoc_updateDocuments uris ((configs.drop 1).take (3 * uris.length)) s.docs
        split
        · rename_i docs hd
          rw [hd] at h
          exact ⟨h, rfl, rfl, rfl, rfl⟩
        · rename_i docs hd
          rw [hd] at h
          obtain ⟨h1, h2⟩ := updateGlobal_spec env ((configs.drop 1).drop (3 * uris.length))
            { s with docs }
          exact ⟨fun u => by rw [h1]; exact h u, h2.workspaces, h2.encoding, h2.capabilities,
            h2.logging⟩

/-! ## The effect of an event on the documents -/

/-- The encoding after an event. -/
def encodingAfter (e : Event) (enc : Encoding) : Encoding :=
  match e with
  | .request _ (.initialize _ c) => if c.utf8 then .utf8 else .utf16
  | _ => enc

/-- What an event does to the document `u` (up to client options). -/
inductive Effect (enc : Encoding) (u : Url) : Event → Option (Document T) → Option (Document T) → Prop
  | opened {text version d old} (h : Document.new (T := T) text (some version) enc = some d) :
      Effect enc u (.notification (.didOpen u version text)) old (some d.core)
  | changed {version changes d d'} (h : d.onDidChange changes version = some d') :
      Effect enc u (.notification (.didChange u version changes)) (some d) (some d'.core)
  | changedUnknown {version changes} :
      Effect enc u (.notification (.didChange u version changes)) none none
  | closed {old} : Effect enc u (.notification (.didClose u)) old none
  | other {e old} (h1 : ∀ version text, e ≠ .notification (.didOpen u version text))
      (h2 : ∀ version changes, e ≠ .notification (.didChange u version changes))
      (h3 : e ≠ .notification (.didClose u)) : Effect enc u e old old

theorem onDidChange_core (d : Document T) (changes : List Change) (v : Int) :
    (d.core.onDidChange changes v).map Document.core = (d.onDidChange changes v).map Document.core := by
  unfold Document.onDidChange Document.core
  simp only
  split <;> simp only [Option.map_none, Option.map_map] <;> rfl

theorem handleEvent_spec {env : Env} {e : Event} {s : State T} {t : Tick T}
    (h : handleEvent env e s = some t) :
    t.state.encoding = encodingAfter e s.encoding ∧
    ∀ u, Effect s.encoding u e ((s.doc u).map Document.core) ((t.state.doc u).map Document.core) := by
  have same : ∀ (e : Event) (s' : State T) (u : Url),
      (∀ version text, e ≠ .notification (.didOpen u version text)) →
      (∀ version changes, e ≠ .notification (.didChange u version changes)) →
      e ≠ .notification (.didClose u) → SameDoc s.docs s'.docs u →
      Effect s.encoding u e ((s.doc u).map Document.core) ((s'.doc u).map Document.core) := by
    intro e s' u h1 h2 h3 hs
    unfold State.doc
    rw [show (s'.docs.lookup u).map Document.core = _ from hs]
    exact .other h1 h2 h3
  cases e with
  | kernel =>
    cases h
    exact ⟨rfl, fun u => same _ s u (by simp) (by simp) (by simp) (.refl _ _)⟩
  | notification n =>
    simp only [handleEvent, Option.map_eq_some_iff] at h
    obtain ⟨⟨s', ok, outs⟩, h, rfl⟩ := h
    cases n with
    | initialized =>
      have hs : s' = s := by
        simp only [handleNotification, handleInitialized] at h
        split at h <;> (split at h <;> (cases h; rfl))
      subst hs
      exact ⟨rfl, fun u => same _ s' u (by simp) (by simp) (by simp) (.refl _ _)⟩
    | didChangeWorkspaceFolders added removed =>
      cases h
      exact ⟨rfl, fun u => same _ _ u (by simp) (by simp) (by simp) (.refl _ _)⟩
    | didChangeConfiguration =>
      simp only [handleNotification, Option.some.injEq] at h
      have h1 := updateConfig_spec env (env.order (s.docs.map Prod.fst)) s
      rw [h] at h1
      exact ⟨h1.2.encoding, fun u => same _ _ u (by simp) (by simp) (by simp) (h1.1 u)⟩
    | didChangeWatchedFiles uris =>
      cases h
      exact ⟨rfl, fun u => same _ _ u (by simp) (by simp) (by simp) (.refl _ _)⟩
    | didSave v =>
      cases h
      exact ⟨rfl, fun u => same _ _ u (by simp) (by simp) (by simp) (.refl _ _)⟩
    | didOpen v version text =>
      simp only [handleNotification, didOpen, Option.map_eq_some_iff] at h
      obtain ⟨d, hd, h⟩ := h
      have h1 := updateConfig_spec env [v] { s with docs := insertDoc s.docs v d }
      have hs' : s' = (updateConfig env [v] { s with docs := insertDoc s.docs v d }).1 := by
        split at h
        · rename_i hx; rw [hx]; cases h; rfl
        · rename_i hx; rw [hx]; cases h; rfl
      rw [← hs'] at h1
      refine ⟨h1.2.encoding, fun u => ?_⟩
      by_cases hu : u = v
      · subst hu
        have := h1.1 u
        unfold SameDoc at this
        rw [lookup_insert, if_pos rfl] at this
        unfold State.doc
        rw [this]
        exact .opened hd
      · refine same _ _ u (by simp [Ne.symm hu]) (by simp) (by simp) ?_
        have := h1.1 u
        unfold SameDoc at this ⊢
        rw [this, lookup_insert, if_neg hu]
    | didChange v version changes =>
      simp only [handleNotification, didChange] at h
      cases hd : s.doc v with
      | none =>
        rw [hd] at h
        cases h
        refine ⟨rfl, fun u => ?_⟩
        by_cases hu : u = v
        · subst hu; simp only [hd, Option.map_none]; exact .changedUnknown
        · exact same _ _ u (by simp) (by simp [Ne.symm hu]) (by simp) (.refl _ _)
      | some d =>
        rw [hd] at h
        simp only [Option.map_eq_some_iff] at h
        obtain ⟨d', hd', h⟩ := h
        cases h
        refine ⟨rfl, fun u => ?_⟩
        by_cases hu : u = v
        · subst hu
          have h1 := onDidChange_core d changes version
          rw [hd'] at h1
          simp only [Option.map_eq_some_iff, Option.map_some] at h1
          obtain ⟨d'', h2, h3⟩ := h1
          have : (State.doc { s with docs := modifyDoc s.docs u fun _ => d' } u).map Document.core =
              some d''.core := by
            show ((modifyDoc s.docs u fun _ => d').lookup u).map Document.core = _
            rw [lookup_modify, if_pos rfl, show s.docs.lookup u = some d from hd]
            simp [h3]
          simp only [this, hd, Option.map_some]
          exact .changed h2
        · refine same _ _ u (by simp) (by simp [Ne.symm hu]) (by simp) ?_
          show ((modifyDoc s.docs v fun _ => d').lookup u).map Document.core = _
          rw [lookup_modify, if_neg hu]
    | didClose v =>
      simp only [handleNotification, didClose] at h
      cases hd : s.doc v with
      | none =>
        rw [hd] at h
        cases h
        refine ⟨rfl, fun u => ?_⟩
        by_cases hu : u = v
        · subst hu; simp only [hd, Option.map_none]; exact .closed
        · exact same _ _ u (by simp) (by simp) (by simp [Ne.symm hu]) (.refl _ _)
      | some d =>
        rw [hd] at h
        cases h
        refine ⟨rfl, fun u => ?_⟩
        by_cases hu : u = v
        · subst hu
          have : State.doc { s with docs := s.docs.filter fun e => e.1 ≠ u } u = none := by
            show (s.docs.filter fun e => e.1 ≠ u).lookup u = none
            rw [lookup_filter_ne, if_pos rfl]
          simp only [this, Option.map_none]
          exact .closed
        · refine same _ _ u (by simp) (by simp) (by simp [Ne.symm hu]) ?_
          show ((s.docs.filter fun e => e.1 ≠ v).lookup u).map Document.core = _
          rw [lookup_filter_ne, if_neg hu]
  | request id r =>
    simp only [handleEvent, Option.map_eq_some_iff] at h
    obtain ⟨⟨s', a⟩, h, rfl⟩ := h
    cases r with
    | «initialize» folders c =>
      simp only [handleRequest, handleInitialize] at h
      split at h
      · cases h
      · cases h
        exact ⟨rfl, fun u => same _ _ u (by simp) (by simp) (by simp) (.refl _ _)⟩
    | shutdown =>
      cases h
      exact ⟨rfl, fun u => same _ _ u (by simp) (by simp) (by simp) (.refl _ _)⟩
    | formatting v o =>
      simp only [handleRequest, Option.map_eq_some_iff] at h
      obtain ⟨a', _, h⟩ := h
      cases h
      exact ⟨rfl, fun u => same _ _ u (by simp) (by simp) (by simp)
        (sameDoc_formattingOptions v o s u)⟩
    | rangeFormatting v range o =>
      simp only [handleRequest, Option.map_eq_some_iff] at h
      obtain ⟨a', _, h⟩ := h
      cases h
      exact ⟨rfl, fun u => same _ _ u (by simp) (by simp) (by simp)
        (sameDoc_formattingOptions v o s u)⟩
    | viewFile v k =>
      cases h
      exact ⟨rfl, fun u => same _ _ u (by simp) (by simp) (by simp) (.refl _ _)⟩

/-! ## Runs -/

/-- The events are handled one after the other, each in the state the previous one left, with the
responses and messages sent on the way. -/
inductive Runs : State T → List (Env × Event) → State T → List (Nat × Answer Response) → List Out → Prop
  | nil (s) : Runs s [] s [] []
  | snoc {s es s' rs os env e t} (hs : Runs s es s' rs os) (h : handleEvent env e s' = some t) :
      Runs s (es ++ [(env, e)]) t.state (rs ++ t.response.toList) (os ++ t.outs)

theorem Runs.cons {s : State T} {env : Env} {e : Event} {t : Tick T} (h : handleEvent env e s = some t)
    {es : List (Env × Event)} {s' : State T} {rs : List (Nat × Answer Response)} {os : List Out}
    (hs : Runs t.state es s' rs os) :
    Runs s ((env, e) :: es) s' (t.response.toList ++ rs) (t.outs ++ os) := by
  induction hs with
  | nil =>
    have := Runs.snoc (.nil s) h
    simpa using this
  | snoc hs h' ih =>
    have := Runs.snoc ih h'
    simpa using this

end Verif.Lsp
