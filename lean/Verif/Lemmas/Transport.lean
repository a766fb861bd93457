import Verif.Model.Transport
import Verif.Props.MainLoop

/-!
# An invariant of the server around the main loop
-/

namespace Verif.Transport

open Verif.Lsp

variable {T : Tools}

/-- The requests among the messages of the client. -/
def msgId : Msg → Option Nat
  | .request id _ => some id
  | _ => none

def evId : Event → Option Nat
  | .request id _ => some id
  | _ => none

def msgIds (l : List Msg) : List Nat := l.filterMap msgId

def evIds (l : List Event) : List Nat := l.filterMap evId

/-- The event for a message of the client. -/
def toEvent : Msg → Option Event
  | .request id r => some (.request id r)
  | .notification x => some (.notification x)
  | .cancel _ => none

/-- Not one of the requests `dropped`. -/
def kept (dropped : List Nat) (e : Event) : Bool :=
  match evId e with
  | some id => !dropped.contains id
  | none => true

/-- Neither `initialize` nor `shutdown`. -/
def OrdinaryEvent : Event → Prop
  | .request _ r => ordinary r = true
  | _ => True

/-! ## Lists -/

theorem evId_of_isTask {id : Nat} {e : Event} (h : isTask id e = true) : evId e = some id := by
  cases e <;> simp_all [isTask, requestOf, evId]

theorem evIds_append (a b : List Event) : evIds (a ++ b) = evIds a ++ evIds b := List.filterMap_append ..

theorem msgIds_append (a b : List Msg) : msgIds (a ++ b) = msgIds a ++ msgIds b := List.filterMap_append ..

theorem evId_eq (e : Event) : evId e = (requestOf e).map Prod.fst := by cases e <;> rfl

theorem filter_task_of_not_mem {id : Nat} {l : List Event} (h : id ∉ evIds l) :
    l.filter (fun e => !isTask id e) = l := by
  rw [List.filter_eq_self]
  intro e he
  cases ht : isTask id e with
  | false => rfl
  | true => exact absurd (List.mem_filterMap.2 ⟨e, he, evId_of_isTask ht⟩) h

theorem perm_filter_task {id : Nat} {l : List Event} (hn : (evIds l).Nodup) (ha : l.any (isTask id) = true) :
    (evIds l).Perm (id :: evIds (l.filter fun e => !isTask id e)) := by
  induction l with
  | nil => cases ha
  | cons e l ih =>
    cases ht : isTask id e with
    | true =>
      have he := evId_of_isTask ht
      simp only [evIds, List.filterMap_cons, he] at hn ⊢
      have h2 := filter_task_of_not_mem (l := l) (id := id) (List.nodup_cons.1 hn).1
      simp [ht, h2]
    | false =>
      simp only [List.any_cons, ht, Bool.false_or] at ha
      simp only [List.filter_cons, ht, Bool.not_false, if_true]
      cases hi : evId e with
      | none =>
        simp only [evIds, List.filterMap_cons, hi] at hn ⊢
        exact ih hn ha
      | some j =>
        simp only [evIds, List.filterMap_cons, hi] at hn ⊢
        exact ((ih (List.nodup_cons.1 hn).2 ha).cons j).trans (.swap _ _ _)

theorem perm_filter_key {id : Nat} {l : List (Nat × Request)} (p : Nat × Request → Bool)
    (hp : ∀ x ∈ l, p x = true → x.1 = id) (hn : (l.map Prod.fst).Nodup) (ha : ∃ x ∈ l, p x = true) :
    (l.map Prod.fst).Perm (id :: (l.filter fun x => !p x).map Prod.fst) := by
  induction l with
  | nil => simp at ha
  | cons x l ih =>
    simp only [List.map_cons] at hn ⊢
    cases hx : p x with
    | true =>
      have hi := hp x (by simp) hx
      have : l.filter (fun x => !p x) = l := by
        rw [List.filter_eq_self]
        intro y hy
        cases hpy : p y with
        | false => rfl
        | true =>
          exfalso
          apply (List.nodup_cons.1 hn).1
          rw [hi, ← hp y (by simp [hy]) hpy]
          exact List.mem_map_of_mem hy
      simp [hx, this, hi]
    | false =>
      obtain ⟨y, hy, hpy⟩ := ha
      rcases List.mem_cons.1 hy with rfl | hy
      · rw [hx] at hpy; cases hpy
      · have := ih (fun z hz => hp z (by simp [hz])) (List.nodup_cons.1 hn).2 ⟨y, hy, hpy⟩
        simp only [List.filter_cons, hx, Bool.not_false, if_true, List.map_cons]
        exact (this.cons _).trans (.swap _ _ _)

/-- Two entries with the same key are the same. -/
theorem evIds_inj {l : List Event} (hn : (evIds l).Nodup) {id : Nat} {r r' : Request} (h : .request id r ∈ l)
    (h' : .request id r' ∈ l) : r = r' := by
  induction l with
  | nil => cases h
  | cons e l ih =>
    have mem : ∀ {q}, Event.request id q ∈ l → id ∈ evIds l := fun hq =>
      List.mem_filterMap.2 ⟨_, hq, rfl⟩
    rcases List.mem_cons.1 h with rfl | h1
    · rcases List.mem_cons.1 h' with h2 | h2
      · cases h2; rfl
      · exact absurd (mem h2) (List.nodup_cons.1 hn).1
    · rcases List.mem_cons.1 h' with rfl | h2
      · exact absurd (mem h1) (List.nodup_cons.1 hn).1
      · refine ih ?_ h1 h2
        simp only [evIds, List.filterMap_cons] at hn
        cases hi : evId e <;> rw [hi] at hn
        · exact hn
        · exact (List.nodup_cons.1 hn).2

/-! ## Responses -/

theorem response_from {es : List (Env × Event)} {s0 s : State T} {rs : List (Nat × Answer Response)} {os : List Out}
    (h : Runs s0 es s rs os) {id : Nat} {a : Answer Response} (hm : (id, a) ∈ rs) :
    ∃ env r s1 s2, (env, .request id r) ∈ es ∧ handleRequest (T := T) env r s1 = some (s2, a) := by
  induction h with
  | nil => cases hm
  | @snoc es s' rs os env e t hs h ih =>
    rcases List.mem_append.1 hm with hm | hm
    · obtain ⟨env', r, s1, s2, h1, h2⟩ := ih hm
      exact ⟨env', r, s1, s2, by simp [h1], h2⟩
    · cases e with
      | kernel => cases h; simp at hm
      | notification n =>
        simp only [handleEvent, Option.map_eq_some_iff] at h
        obtain ⟨_, _, rfl⟩ := h
        simp at hm
      | request id' r =>
        simp only [handleEvent, Option.map_eq_some_iff] at h
        obtain ⟨⟨s2, a'⟩, h, rfl⟩ := h
        simp only [Option.toList_some, List.mem_singleton, Prod.mk.injEq] at hm
        obtain ⟨rfl, rfl⟩ := hm
        exact ⟨env, r, s', s2, by simp, h⟩

theorem fits_of_handle {env : Env} {r : Request} {s s' : State T} {a : Answer Response}
    (h : handleRequest env r s = some (s', a)) : fits r a = true := by
  cases r with
  | «initialize» f c =>
    simp only [handleRequest, handleInitialize] at h
    split at h <;> cases h
    rfl
  | shutdown => cases h; rfl
  | formatting u o =>
    simp only [handleRequest, Option.map_eq_some_iff] at h
    obtain ⟨x, _, h⟩ := h
    cases h
    cases x <;> rfl
  | rangeFormatting u g o =>
    simp only [handleRequest, Option.map_eq_some_iff] at h
    obtain ⟨x, _, h⟩ := h
    cases h
    cases x <;> rfl
  | viewFile u k =>
    simp only [handleRequest, Option.some.injEq, Prod.mk.injEq, viewFile] at h
    obtain ⟨_, rfl⟩ := h
    cases hd : s.doc u with
    | none => rfl
    | some d => simp only [Option.bind_some]; cases T.view k d.contents d.parse <;> rfl

theorem initialize_some {env : Env} {f : List Url} {c : Capabilities} {s s' : State T} {a : Answer Response}
    (h : handleRequest env (.initialize f c) s = some (s', a)) : ∃ enc, a = some (.initialize enc) := by
  simp only [handleRequest, handleInitialize] at h
  split at h <;> cases h
  exact ⟨_, rfl⟩

/-! ## The invariant -/

/-- What has been accepted, for each status of the connection. -/
def Shape (accepted : List Event) : Status → Prop
  | .uninitialized => accepted = []
  | .initializing => ∃ id f c, accepted = [.request id (.initialize f c)]
  | .initialized => ∃ id f c rest, accepted = .request id (.initialize f c) :: rest ∧ ∀ e ∈ rest, OrdinaryEvent e
  | .shutDown => ∃ id f c rest id', accepted = .request id (.initialize f c) :: rest ++ [.request id' .shutdown] ∧
      ∀ e ∈ rest, OrdinaryEvent e

structure Inv (n : Net T) : Prop where
  order : n.accepted.filter (kept n.dropped) = n.done.map Prod.snd ++ n.channel ++ n.queue
  acc : n.accepted.Sublist (n.read.filterMap toEvent)
  sub : (evIds n.accepted).Sublist (msgIds n.read)
  ids : (msgIds n.read).Perm (evIds n.queue ++ n.waiting.map Prod.fst ++ n.sent.map Prod.fst)
  runs : ∃ rs os, Runs {} n.done n.state rs os ∧ (∀ a ∈ n.answered, a ∈ rs) ∧
    (∀ id r, (id, .result r) ∈ n.sent → (id, some r) ∈ rs) ∧ (∀ id, (id, .failed) ∈ n.sent → (id, none) ∈ rs)
  wacc : ∀ x ∈ n.waiting, .request x.1 x.2 ∈ n.accepted
  wloc : n.loop ≠ .crashed → ∀ x ∈ n.waiting, x.1 ∈ n.answered.map Prod.fst ∨ .request x.1 x.2 ∈ n.channel
  answ : ∀ a ∈ n.answered, a.1 ∈ n.waiting.map Prod.fst
  shape : Shape n.accepted n.status
  loopr : n.loop = .running → ∀ id, .request id .shutdown ∉ n.done.map Prod.snd
  loope : n.loop = .ended → ∃ id, .request id .shutdown ∈ n.done.map Prod.snd
  loopc : n.loop = .crashed → ∃ env e es, n.channel = e :: es ∧ handleEvent env e n.state = none
  canc : ∀ id ∈ n.dropped, (id, .cancelled) ∈ n.sent
  cmsg : ∀ id, (id, .cancelled) ∈ n.sent → .cancel id ∈ n.read
  rej : ∀ id, id ∈ msgIds n.read → id ∈ evIds n.accepted ∨ (id, .rejected) ∈ n.sent
  rejn : ∀ id, (id, .rejected) ∈ n.sent → id ∈ msgIds n.read ∧ id ∉ evIds n.accepted
  dacc : ∀ id ∈ n.dropped, id ∈ evIds n.accepted
  init : (∃ id enc, (id, .result (.initialize enc)) ∈ n.sent) → n.status = .initialized ∨ n.status = .shutDown
  down : n.status = .shutDown → ∃ id, .request id .shutdown ∈ n.read
  panic : n.panicked = true → n.loop = .crashed

/-- Once `shutdown` has been handled, nothing is left. -/
theorem Inv.ended {n : Net T} (i : Inv n) (h : n.loop = .ended) : n.channel = [] ∧ n.queue = [] := by
  obtain ⟨id, hid⟩ := i.loope h
  have hm : Event.request id .shutdown ∈ n.accepted := by
    have : Event.request id .shutdown ∈ n.accepted.filter (kept n.dropped) := by
      rw [i.order]; simp [hid]
    exact (List.mem_filter.1 this).1
  have hord : ∀ {e : Event}, OrdinaryEvent e → e ≠ .request id .shutdown := by
    rintro e h rfl; cases h
  have hs := i.shape
  have ho := i.order
  cases hst : n.status with
  | uninitialized => rw [hst] at hs; rw [show n.accepted = [] from hs] at hm; cases hm
  | initializing => rw [hst] at hs; obtain ⟨_, f, c, hs⟩ := hs; rw [hs] at hm; simp at hm
  | initialized =>
    rw [hst] at hs
    obtain ⟨_, f, c, rest, hs, hr⟩ := hs
    rw [hs] at hm
    simp only [List.mem_cons] at hm
    rcases hm with hm | hm
    · cases hm
    · exact absurd rfl (hord (hr _ hm))
  | shutDown =>
    rw [hst] at hs
    obtain ⟨id0, f, c, rest, id', hs, hr⟩ := hs
    have hnot : ∀ j, Event.request j .shutdown ∉ Event.request id0 (.initialize f c) :: rest := by
      intro j hj
      simp only [List.mem_cons] at hj
      rcases hj with hj | hj
      · cases hj
      · exact absurd (hr _ hj) (by simp [OrdinaryEvent, ordinary])
    rw [hs, List.filter_append] at ho
    generalize hc : n.channel ++ n.queue = tl at ho ⊢
    rw [List.append_assoc, hc] at ho
    have htl : tl = [] := by
      rcases List.eq_nil_or_concat tl with h0 | ⟨tl', z, rfl⟩
      · exact h0
      · exfalso
        have hd : Event.request id .shutdown ∈ (Event.request id0 (.initialize f c) :: rest).filter (kept n.dropped) := by
          by_cases hk : kept n.dropped (.request id' .shutdown) = true
          · rw [List.filter_cons_of_pos hk, List.filter_nil, List.concat_eq_append, ← List.append_assoc] at ho
            rw [(List.append_inj' ho rfl).1]
            exact List.mem_append_left _ hid
          · rw [List.filter_cons_of_neg hk, List.filter_nil, List.append_nil] at ho
            rw [ho]
            exact List.mem_append_left _ hid
        exact hnot _ (List.mem_filter.1 hd).1
    rw [htl] at hc
    exact List.append_eq_nil_iff.1 hc

theorem nodup_of_read {n : Net T} (i : Inv n) (h : (msgIds n.read).Nodup) :
    (evIds n.queue).Nodup ∧ (n.waiting.map Prod.fst).Nodup ∧ (n.sent.map Prod.fst).Nodup ∧
      (∀ id ∈ evIds n.queue, id ∉ n.waiting.map Prod.fst ∧ id ∉ n.sent.map Prod.fst) ∧
      (∀ id ∈ n.waiting.map Prod.fst, id ∉ n.sent.map Prod.fst) ∧ (evIds n.accepted).Nodup := by
  have h1 := i.ids.nodup_iff.1 h
  rw [List.nodup_append, List.nodup_append] at h1
  obtain ⟨⟨h2, h3, h4⟩, h5, h6⟩ := h1
  refine ⟨h2, h3, h5, fun id hid => ⟨fun hw => h4 id hid id hw rfl, fun hs => h6 id (by simp [hid]) id hs rfl⟩,
    fun id hid hs => h6 id (List.mem_append_right _ hid) id hs rfl, i.sub.nodup h⟩

end Verif.Transport
