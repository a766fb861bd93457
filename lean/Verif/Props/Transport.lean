import Verif.Lemmas.TransportStep

/-!
# C77: the server answers concurrently what it does one after the other
-/

namespace Verif.Transport

open Verif.Lsp

variable {T : Tools}

/-- C77: whatever the interleaving, the main loop handles the accepted messages in the order in which they came,
except for requests that were cancelled in time; the state is the one of the main loop alone. -/
theorem C77_order {n : Net T} (h : Reaches n) (hn : (msgIds n.read).Nodup) :
    ∃ rs os, Runs start n.done n.state rs os ∧
      n.accepted.Sublist (n.read.filterMap toEvent) ∧
      n.accepted.filter (kept n.dropped) = n.done.map Prod.snd ++ n.channel ++ n.queue ∧
      ∀ id ∈ n.dropped, .cancel id ∈ n.read ∧ (id, .cancelled) ∈ n.sent := by
  have i := h.inv hn
  obtain ⟨rs, os, h1, _⟩ := i.runs
  exact ⟨rs, os, h1, i.acc, i.order, fun id hid => ⟨i.cmsg _ (i.canc id hid), i.canc id hid⟩⟩

theorem runs_split {s0 s : State T} {es : List (Env × Event)} {rs : List (Nat × Answer Response)} {os : List Out}
    (h : Runs s0 es s rs os) {id : Nat} {a : Answer Response} (hm : (id, a) ∈ rs) :
    ∃ (before : _) (env : Env) (r : Request) (after : _) (s1 s2 : State T) (rs1 : _) (os1 : _), es = before ++ (env, .request id r) :: after ∧ Runs s0 before s1 rs1 os1 ∧
      handleRequest env r s1 = some (s2, a) := by
  induction h with
  | nil => cases hm
  | @snoc es s' rs os env e t hs h ih =>
    rcases List.mem_append.1 hm with hm | hm
    · obtain ⟨before, env', r, after, s1, s2, rs1, os1, rfl, h1, h2⟩ := ih hm
      exact ⟨before, env', r, after ++ [(env, e)], s1, s2, rs1, os1, by simp, h1, h2⟩
    · cases e with
      | kernel => cases h; simp at hm
      | notification n =>
        simp only [handleEvent, Option.map_eq_some_iff] at h
        obtain ⟨_, _, rfl⟩ := h
        simp at hm
      | request id' r =>
        simp only [handleEvent, Option.map_eq_some_iff] at h
        obtain ⟨⟨s2, a'⟩, h, rfl⟩ := h
        simp only [Option.toList_some, List.mem_singleton, Prod.mk.injEq] at hm
        obtain ⟨rfl, rfl⟩ := hm
        exact ⟨es, env, r, [], s', s2, rs, os, by simp, hs, h⟩

/-- C77: a result that is sent to the client is the one the main loop computes for the client's request in the state
after the messages before it, however long the reply took. -/
theorem C77_results {n : Net T} (h : Reaches n) (hn : (msgIds n.read).Nodup) {id : Nat} {a : Answer Response}
    (hs : (id, replyOf a) ∈ n.sent) :
    ∃ (before : _) (env : Env) (r : Request) (after : _) (s1 s2 : State T) (rs : _) (os : _), .request id r ∈ n.read ∧
      n.done = before ++ (env, .request id r) :: after ∧ Runs start before s1 rs os ∧
      handleRequest env r s1 = some (s2, a) ∧ fits r a = true := by
  have i := h.inv hn
  obtain ⟨rs, os, h1, _, h3, h4⟩ := i.runs
  have hm : (id, a) ∈ rs := by
    cases a with
    | none => exact h4 _ hs
    | some a => exact h3 _ _ hs
  obtain ⟨before, env, r, after, s1, s2, rs1, os1, h5, h6, h7⟩ := runs_split h1 hm
  have h8 : Event.request id r ∈ n.accepted := by
    have : Event.request id r ∈ n.accepted.filter (kept n.dropped) := by rw [i.order, h5]; simp
    exact (List.mem_filter.1 this).1
  obtain ⟨m, h9, h10⟩ := List.mem_filterMap.1 (i.acc.subset h8)
  have h11 : m = .request id r := by cases m <;> simp_all [toEvent]
  exact ⟨before, env, r, after, s1, s2, rs1, os1, h11 ▸ h9, h5, h6, h7, fits_of_handle h7⟩

/-- C77: no request gets two replies, and none is lost: each is queued, waiting, or has been replied to. -/
theorem C77_once {n : Net T} (h : Reaches n) (hn : (msgIds n.read).Nodup) :
    (n.sent.map Prod.fst).Nodup ∧
      (msgIds n.read).Perm (evIds n.queue ++ n.waiting.map Prod.fst ++ n.sent.map Prod.fst) := by
  have i := h.inv hn
  exact ⟨(nodup_of_read i hn).2.2.1, i.ids⟩

/-- C77: when the server has nothing left to do and its main loop has not crashed, every request has exactly one reply,
and every accepted message has been handled. -/
theorem C77_complete {n : Net T} (h : Reaches n) (hn : (msgIds n.read).Nodup) (hl : n.loop ≠ .crashed)
    (hq : ∀ m, ¬ Work n m) :
    (msgIds n.read).Perm (n.sent.map Prod.fst) ∧ n.done.map Prod.snd = n.accepted.filter (kept n.dropped) := by
  have i := h.inv hn
  have hp : n.panicked = false := by
    cases hp : n.panicked with
    | false => rfl
    | true => exact absurd (i.panic hp) hl
  have hqueue : n.queue = [] := by
    cases hqu : n.queue with
    | nil => rfl
    | cons e es => exact absurd (.poll n e es hp hqu) (hq _)
  have hchan : n.channel = [] := by
    cases hlo : n.loop with
    | crashed => exact absurd hlo hl
    | ended => exact (i.ended hlo).1
    | running =>
      cases hc : n.channel with
      | nil => rfl
      | cons e es =>
        exact absurd (.handle n plainEnv e es hp hlo hc) (hq _)
  have hwait : n.waiting = [] := by
    cases hw : n.waiting with
    | nil => rfl
    | cons x xs =>
      have hx : x ∈ n.waiting := by simp [hw]
      rcases i.wloc hl x hx with h1 | h1
      · obtain ⟨⟨id, a⟩, h2, h3⟩ := List.mem_map.1 h1
        simp only at h3
        subst h3
        exact absurd (.finish n x.1 x.2 a hp hx h2) (hq _)
      · rw [hchan] at h1; cases h1
  constructor
  · simpa [hqueue, hwait, evIds] using i.ids
  · rw [i.order, hqueue, hchan]; simp

/-- How much is left to do. -/
def left (n : Net T) : Nat :=
  3 * n.queue.length + 2 * n.channel.length + n.answered.length + (if n.loop = .running then 1 else 0) +
    (if n.panicked then 0 else 1)

/-- C77: the server does not work forever without new messages: each thing it does leaves less to do. -/
theorem C77_settles {n m : Net T} (h : Work n m) : left m < left n := by
  cases h with
  | poll e es hp h =>
    unfold Net.poll
    split
    · simp only [left, h, List.length_cons, List.length_append, List.length_nil]; omega
    · simp [left, hp]
  | handle env e es hp hl h =>
    unfold Net.handle
    split
    · simp [left, hl]
    · rename_i t ht
      have : (t.response.toList.filter fun a => n.waiting.any fun x => x.1 == a.1).length ≤ 1 := by
        refine Nat.le_trans (List.length_filter_le _ _) ?_
        cases t.response <;> simp
      simp only [left, h, hl, List.length_cons, List.length_append, if_true]
      have h1 : (if (if t.shutdown then LoopStatus.ended else .running) = .running then 1 else 0) ≤ 1 := by
        split <;> simp
      omega
  | finish id r a hp hw ha =>
    unfold Net.finish
    split
    · have : (n.answered.filter fun x => x.1 != id).length < n.answered.length := by
        rw [List.length_filter_lt_length_iff_exists]
        exact ⟨_, ha, by simp⟩
      simp only [left]
      omega
    · simp [left, hp]
  | orphan id r hp hl hw ha => simp [left, hp]

/-- C77: `initialize` is the first accepted message and the only one of its kind, and nothing is accepted after
`shutdown`. -/
theorem C77_phases {n : Net T} (h : Reaches n) (hn : (msgIds n.read).Nodup) {before after : List Event} {e : Event}
    (he : n.accepted = before ++ e :: after) :
    ((∃ id f c, e = .request id (.initialize f c)) ↔ before = []) ∧
      ((∃ id, e = .request id .shutdown) → after = []) := by
  have hs := (h.inv hn).shape
  have hord : ∀ {e : Event}, OrdinaryEvent e → (¬ ∃ id f c, e = .request id (.initialize f c)) ∧
      ¬ ∃ id, e = .request id .shutdown := by
    intro e h
    constructor
    · rintro ⟨_, _, _, rfl⟩; cases h
    · rintro ⟨_, rfl⟩; cases h
  rw [he] at hs
  cases hst : n.status with
  | uninitialized => rw [hst] at hs; exact absurd hs (by simp [Shape])
  | initializing =>
    rw [hst] at hs
    obtain ⟨id, f, c, hs⟩ := hs
    cases before with
    | nil =>
      obtain ⟨rfl, rfl⟩ := List.cons.inj hs
      exact ⟨⟨fun _ => rfl, fun _ => ⟨id, f, c, rfl⟩⟩, by simp⟩
    | cons b before => simp at hs
  | initialized =>
    rw [hst] at hs
    obtain ⟨id, f, c, rest, hs, hr⟩ := hs
    cases before with
    | nil =>
      simp only [List.nil_append] at hs
      obtain ⟨rfl, rfl⟩ := List.cons.inj hs
      exact ⟨⟨fun _ => rfl, fun _ => ⟨id, f, c, rfl⟩⟩, by simp⟩
    | cons b before =>
      obtain ⟨rfl, rfl⟩ := List.cons.inj hs
      have := hord (hr e (by simp))
      exact ⟨⟨fun h => absurd h this.1, by simp⟩, fun h => absurd h this.2⟩
  | shutDown =>
    rw [hst] at hs
    obtain ⟨id, f, c, rest, id', hs, hr⟩ := hs
    cases before with
    | nil =>
      simp only [List.nil_append, List.cons_append] at hs
      obtain ⟨rfl, rfl⟩ := List.cons.inj hs
      exact ⟨⟨fun _ => rfl, fun _ => ⟨id, f, c, rfl⟩⟩, by simp⟩
    | cons b before =>
      simp only [List.cons_append] at hs
      obtain ⟨rfl, hs'⟩ := List.cons.inj hs
      clear hs
      rcases List.eq_nil_or_concat after with rfl | ⟨after, z, rfl⟩
      · obtain ⟨_, h2⟩ := List.append_inj' hs' rfl
        obtain ⟨rfl, _⟩ := List.cons.inj h2
        exact ⟨⟨by simp, by simp⟩, fun _ => rfl⟩
      · rw [List.concat_eq_append, ← List.cons_append, ← List.append_assoc] at hs'
        obtain ⟨rfl, _⟩ := List.append_inj' hs' rfl
        have := hord (hr e (by simp))
        exact ⟨⟨fun h => absurd h this.1, by simp⟩, fun h => absurd h this.2⟩

/-- C77: once the client has the reply to its `initialize`, its messages are accepted, until it asks to shut down. -/
theorem C77_accepts {n : Net T} (h : Reaches n) (hn : (msgIds n.read).Nodup) {id0 : Nat} {enc : LineIndex.Encoding}
    (hi : (id0, .result (.initialize enc)) ∈ n.sent) (hs : ∀ id, .request id .shutdown ∉ n.read) :
    (∀ x, (n.receive (.notification x)).accepted = n.accepted ++ [.notification x]) ∧
      ∀ id r, (∀ f c, r ≠ .initialize f c) → (n.receive (.request id r)).accepted = n.accepted ++ [.request id r] := by
  have i := h.inv hn
  have hst : n.status = .initialized := by
    rcases i.init ⟨id0, enc, hi⟩ with h | h
    · exact h
    · obtain ⟨id, hd⟩ := i.down h
      exact absurd hd (hs id)
  constructor
  · intro x; simp [Net.receive, hst, Net.enqueue]
  · intro id r hr
    cases r with
    | «initialize» f c => exact absurd rfl (hr f c)
    | _ => simp [Net.receive, hst, Net.enqueue]

/-- C77: the client is told that a request was rejected exactly if it was not accepted, and that it was cancelled only if
it asked for that. -/
theorem C77_errors {n : Net T} (h : Reaches n) (hn : (msgIds n.read).Nodup) (id : Nat) :
    ((id, .rejected) ∈ n.sent ↔ id ∈ msgIds n.read ∧ id ∉ evIds n.accepted) ∧
      ((id, .cancelled) ∈ n.sent → .cancel id ∈ n.read) := by
  have i := h.inv hn
  refine ⟨⟨i.rejn id, fun ⟨h1, h2⟩ => ?_⟩, i.cmsg id⟩
  rcases i.rej id h1 with h | h
  · exact absurd h h2
  · exact h

/-- C77: tasks of the server do not panic as long as the main loop does not: it never is gone while they need it, not
even after `shutdown`, and responses have the right type. -/
theorem C77_panics {n : Net T} (h : Reaches n) (hn : (msgIds n.read).Nodup) (hp : n.panicked = true) :
    n.loop = .crashed := (h.inv hn).panic hp

/-- C77: the server survives a client whose messages are proper, and it need not care about `initialize`. -/
theorem C77_survives (hc : KeepsRoot T.compile) {n : Net T} (h : Reaches n) (hn : (msgIds n.read).Nodup)
    (hp : ∀ before e after, n.accepted.filter (kept n.dropped) = before ++ e :: after → OrdinaryEvent e →
      Proper before e) : n.loop ≠ .crashed ∧ n.panicked = false := by
  have i := h.inv hn
  have hl : n.loop ≠ .crashed := by
    intro hl
    obtain ⟨env, e, es, h1, h2⟩ := i.loopc hl
    obtain ⟨rs, os, h3, _⟩ := i.runs
    refine C51_survives hc h3 env e ?_ h2
    have ho := i.order
    rw [h1, List.append_assoc, List.cons_append] at ho
    have hacc : e ∈ n.accepted := by
      have : e ∈ n.accepted.filter (kept n.dropped) := by rw [ho]; simp
      exact (List.mem_filter.1 this).1
    cases e with
    | notification x => exact hp _ _ _ ho trivial
    | kernel => trivial
    | request id r =>
      by_cases hord : ordinary r = true
      · exact hp _ _ _ ho hord
      · cases r with
        | «initialize» f c =>
          intro id' f' c' hm
          have hm' : Event.request id' (.initialize f' c') ∈ n.accepted.filter (kept n.dropped) := by
            rw [ho]; exact List.mem_append_left _ hm
          obtain ⟨b, a, hb⟩ := List.append_of_mem (List.mem_filter.1 hm').1
          obtain ⟨b', a', hb'⟩ := List.append_of_mem hacc
          obtain rfl := (C77_phases h hn hb).1.1 ⟨_, _, _, rfl⟩
          obtain rfl := (C77_phases h hn hb').1.1 ⟨_, _, _, rfl⟩
          rw [hb] at hb'
          obtain ⟨h5, _⟩ := List.cons.inj hb'
          have na := (nodup_of_read i hn).2.2.2.2.2
          have nf : (evIds (n.accepted.filter (kept n.dropped))).Nodup :=
            (List.Sublist.filterMap _ List.filter_sublist).nodup na
          rw [ho, evIds_append, List.nodup_append] at nf
          injection h5 with h5 _
          exact nf.2.2 id' (List.mem_filterMap.2 ⟨_, hm, rfl⟩) id (by simp [evIds, evId]) h5
        | shutdown => trivial
        | formatting u o => exact absurd rfl hord
        | rangeFormatting u g o => exact absurd rfl hord
        | viewFile u k => exact absurd rfl hord
  refine ⟨hl, ?_⟩
  cases hpa : n.panicked with
  | false => rfl
  | true => exact absurd (i.panic hpa) hl

/-! ## A session -/

namespace Example

def hello : Request := .initialize [] ⟨true, false, false, false⟩
def opening : Notification := .didOpen (exUrl "a.R") 1 "x".toList
def look : Request := .viewFile (exUrl "a.R") 0
def ask (id : Nat) : Event := .request id look

/-- The client says hello; a request that comes too early is rejected. -/
def greeted : Net plainTools :=
  ((((({} : Net plainTools).receive (.request 0 hello)).receive (.request 9 look)).poll (.request 0 hello) []).handle
    plainEnv (.request 0 hello) []).finish 0 hello (some (.initialize .utf8))

theorem reaches_greeted : Reaches greeted :=
  .step (.step (.step (.step (.step .start (.receive _ (.request 0 hello) rfl)) (.receive _ (.request 9 look) rfl))
    (.work (.poll _ _ _ rfl rfl))) (.work (.handle _ plainEnv _ _ rfl rfl rfl)))
    (.work (.finish _ 0 hello (some (.initialize .utf8)) rfl (.head _) (.head _)))

/-- It opens a file and asks three times; the first request is cancelled before it is polled. -/
def asked : Net plainTools :=
  ((((greeted.receive (.notification opening)).receive (.request 1 look)).receive (.request 2 look)).receive
    (.request 3 look)).receive (.cancel 1)

theorem reaches_asked : Reaches asked :=
  .step (.step (.step (.step (.step reaches_greeted (.receive _ (.notification opening) rfl))
    (.receive _ (.request 1 look) rfl)) (.receive _ (.request 2 look) rfl)) (.receive _ (.request 3 look) rfl))
    (.receive _ (.cancel 1) rfl)

def polled : Net plainTools :=
  ((asked.poll (.notification opening) [ask 2, ask 3]).poll (ask 2) [ask 3]).poll (ask 3) []

theorem reaches_polled : Reaches polled :=
  .step (.step (.step reaches_asked (.work (.poll _ _ _ rfl rfl))) (.work (.poll _ _ _ rfl rfl)))
    (.work (.poll _ _ _ rfl rfl))

def handled : Net plainTools :=
  ((polled.handle plainEnv (.notification opening) [ask 2, ask 3]).handle plainEnv (ask 2) [ask 3]).handle plainEnv
    (ask 3) []

theorem reaches_handled : Reaches handled :=
  .step (.step (.step reaches_polled (.work (.handle _ plainEnv _ _ rfl rfl rfl)))
    (.work (.handle _ plainEnv _ _ rfl rfl rfl))) (.work (.handle _ plainEnv _ _ rfl rfl rfl))

/-- The third request is replied to before the second one. -/
def replied : Net plainTools := (handled.finish 3 look (some (.text "x"))).finish 2 look (some (.text "x"))

theorem reaches_replied : Reaches replied :=
  .step (.step reaches_handled (.work (.finish _ 3 look (some (.text "x")) rfl (.tail _ (.head _)) (.tail _ (.head _)))))
    (.work (.finish _ 2 look (some (.text "x")) rfl (.head _) (.head _)))

/-- The hypotheses of the theorems hold. -/
example : Reaches replied ∧ (msgIds replied.read).Nodup ∧ replied.loop ≠ .crashed ∧
    replied.sent = [(9, .rejected), (0, .result (.initialize .utf8)), (1, .cancelled), (3, .result (.text "x")),
      (2, .result (.text "x"))] ∧ replied.dropped = [1] ∧ replied.done.length = 4 ∧ (∀ id, .request id .shutdown ∉ replied.read) ∧
    left replied = 2 :=
  ⟨reaches_replied, by decide, by decide, by decide, by decide, by decide, by simp [show replied.read =
    [.request 0 hello, .request 9 look, .notification opening, .request 1 look, .request 2 look, .request 3 look, .cancel 1]
    from rfl, look, hello], by decide⟩

/-- Nothing is left to do. -/
example (m : Net plainTools) : ¬ Work replied m := by
  intro h
  cases h with
  | poll e es hp h => cases h
  | handle env e es hp hl h => cases h
  | finish id r a hp hw ha => cases hw
  | orphan id r hp hl hw ha => cases hw

/-- A second `initialize` would crash the main loop, and then the task; it does not get that far. -/
example : handleEvent plainEnv (.request 5 hello) replied.state = none ∧
    (5, .rejected) ∈ (replied.receive (.request 5 hello)).sent := ⟨by rfl, by decide⟩

def bad : Notification := .didChange (exUrl "a.R") 2 [insertAt 7 0 "a"]

/-- A change that does not fit makes the main loop panic; the next task finds it gone. -/
def crashed : Net plainTools :=
  (((((replied.receive (.notification bad)).poll (.notification bad) []).handle plainEnv (.notification bad) []).receive
    (.request 4 look)).poll (ask 4) [])

theorem reaches_crashed : Reaches crashed :=
  .step (.step (.step (.step (.step reaches_replied (.receive _ (.notification bad) rfl)) (.work (.poll _ _ _ rfl rfl)))
    (.work (.handle _ plainEnv _ _ rfl rfl rfl))) (.receive _ (.request 4 look) rfl)) (.work (.poll _ _ _ rfl rfl))

end Example

/-- C77 is false without the hypothesis on the main loop: after a panic of the main loop the server goes on until the
next message, and then panics itself, with a request that has no reply. -/
theorem C77_crash_spreads : ∃ n : Net plainTools, Reaches n ∧ (msgIds n.read).Nodup ∧ n.panicked = true ∧
    (∀ m, ¬ Step n m) ∧ 4 ∈ msgIds n.read ∧ 4 ∉ n.sent.map Prod.fst := by
  refine ⟨Example.crashed, Example.reaches_crashed, by decide, rfl, ?_, by decide, by decide⟩
  intro m h
  cases h with
  | receive x hp => cases hp
  | work w =>
    cases w with
    | poll e es hp h => cases hp
    | handle env e es hp hl h => cases hp
    | finish id r a hp hw ha => cases hp
    | orphan id r hp hl hw ha => cases hp

end Verif.Transport
