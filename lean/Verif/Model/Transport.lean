import Verif.Model.Lsp

/-!
# Requests in flight (`crates/lsp/src/tower_lsp.rs`)

The main loop handles one event after the other (`Model/Lsp`). Around it, tower-lsp reads messages, rejects some of them,
and runs one task per message, concurrently; a task sends its event to the main loop and waits for the response. All
interleavings are modelled, as a relation.

Of tower-lsp (a fork, not in /repo) the following is assumed, after its published source (`service/layers.rs`,
`transport.rs`): messages are checked in the order in which they arrive, against a state; tasks are polled for the first
time in the same order; cancelling a request drops its task. Clients do not cancel `initialize` and `shutdown`.
-/

namespace Verif.Transport

open Verif.Lsp (Event Request Notification Response Answer Env State handleEvent)
open Verif.Lsp (Tools)

/-- What the client sends. (crates/lsp/src/tower_lsp.rs:39-70, 202-265) -/
inductive Msg
  | notification (n : Notification)
  | request (id : Nat) (r : Request)
  | cancel (id : Nat)

/-- `tower_lsp::service::State`. (external; behind crates/lsp/src/tower_lsp.rs:268-294) -/
inductive Status | uninitialized | initializing | initialized | shutDown
  deriving DecidableEq, Repr

/-- What the client gets for a request: the response, an error of the handler (`new_jsonrpc_error`), or an error of
tower-lsp. (crates/lsp/src/tower_lsp.rs:160-181, 296-302) -/
inductive Reply
  | result (r : Response)
  | failed
  | rejected
  | cancelled
  deriving DecidableEq, Repr

/-- Does the main loop run, has it ended, or has it panicked? (crates/lsp/src/main_loop.rs:270-295) -/
inductive LoopStatus | running | ended | crashed
  deriving DecidableEq, Repr

/-- The server.
* `queue`: tasks that have not been polled yet, by their events
* `channel`: `Backend::events_tx` (tower_lsp.rs:147-149)
* `waiting`: tasks of requests that wait for their responses (tower_lsp.rs:171)
* `answered`: response channels that hold a response
* `state`, `loop`: the main loop
* `sent`: replies to the client
* `panicked`: a task has panicked

For the statements only:
* `read`: the messages so far
* `accepted`: events of tasks that were created
* `dropped`: requests that were cancelled before they were polled
* `done`: the events that the main loop has handled, with the environments -/
structure Net (T : Tools) where
  status : Status := .uninitialized
  queue : List Event := []
  channel : List Event := []
  waiting : List (Nat × Request) := []
  answered : List (Nat × Answer Response) := []
  state : State T := {}
  loop : LoopStatus := .running
  sent : List (Nat × Reply) := []
  panicked : Bool := false
  read : List Msg := []
  accepted : List Event := []
  dropped : List Nat := []
  done : List (Env × Event) := []

variable {T : Tools}

/-- Is it a request that tower-lsp treats like all others? (tower-lsp, external: `initialize` and `shutdown`
have layers of their own; behind crates/lsp/src/tower_lsp.rs:268-294) -/
def ordinary : Request → Bool
  | .initialize _ _ => false
  | .shutdown => false
  | _ => true

/-- A task is created for a message (tower-lsp, external; crates/lsp/src/tower_lsp.rs:160-190). -/
def Net.enqueue (n : Net T) (e : Event) : Net T := { n with queue := n.queue ++ [e], accepted := n.accepted ++ [e] }

/-- An error of tower-lsp is sent (external; behind crates/lsp/src/tower_lsp.rs:268-294). -/
def Net.reject (n : Net T) (id : Nat) : Net T := { n with sent := n.sent ++ [(id, .rejected)] }

/-- The request of a task. (crates/lsp/src/tower_lsp.rs:160-181) -/
def requestOf : Event → Option (Nat × Request)
  | .request id r => some (id, r)
  | _ => none

/-- Is it the task of the request `id`? (external; behind crates/lsp/src/tower_lsp.rs:268-294) -/
def isTask (id : Nat) (e : Event) : Bool :=
  match requestOf e with
  | some x => x.1 == id && ordinary x.2
  | none => false

/-- Does the request `id` wait for its response? (crates/lsp/src/tower_lsp.rs:160-181) -/
def isWaiting (id : Nat) (x : Nat × Request) : Bool := x.1 == id && ordinary x.2

/-- `$/cancelRequest`: the task is dropped, with its side of the response channel. (tower-lsp, external; behind
crates/lsp/src/tower_lsp.rs:268-294) -/
def Net.cancel (n : Net T) (id : Nat) : Net T :=
  if n.queue.any (isTask id) then
    { n with queue := n.queue.filter (fun e => !isTask id e), dropped := n.dropped ++ [id],
             sent := n.sent ++ [(id, .cancelled)] }
  else if n.waiting.any (isWaiting id) then
    { n with waiting := n.waiting.filter (fun x => !isWaiting id x), answered := n.answered.filter (fun a => a.1 != id),
             sent := n.sent ++ [(id, .cancelled)] }
  else n

/-- A message arrives: the layers of tower-lsp. (external; crates/lsp/src/tower_lsp.rs:268-294) -/
def Net.receive (n : Net T) (m : Msg) : Net T :=
  let n := { n with read := n.read ++ [m] }
  match m with
  | .notification x =>
    match n.status with
    | .initialized => n.enqueue (.notification x)
    | _ => n
  | .request id r =>
    match r, n.status with
    | .initialize _ _, .uninitialized => { n with status := .initializing }.enqueue (.request id r)
    | .shutdown, .initialized => { n with status := .shutDown }.enqueue (.request id r)
    | .initialize _ _, _ => n.reject id
    | .shutdown, _ => n.reject id
    | _, .initialized => n.enqueue (.request id r)
    | _, _ => n.reject id
  | .cancel id => n.cancel id

/-- The first poll of a task: `Backend::notify` and the first part of `Backend::request` (tower_lsp.rs:157-169, 182-189).
`send(..).unwrap()` panics if the main loop is gone. -/
def Net.poll (n : Net T) (e : Event) (es : List Event) : Net T :=
  if n.loop = .running then
    { n with queue := es, channel := n.channel ++ [e], waiting := n.waiting ++ (requestOf e).toList }
  else { n with panicked := true }

/-- One turn of the main loop (main_loop.rs:286-293); `respond` ignores a closed channel (main_loop.rs:446-448). A panic
ends the task of the main loop; the event stays in the model's channel. -/
def Net.handle (n : Net T) (env : Env) (e : Event) (es : List Event) : Net T :=
  match handleEvent env e n.state with
  | none => { n with loop := .crashed }
  | some t =>
    { n with
      channel := es, state := t.state, done := n.done ++ [(env, e)],
      answered := n.answered ++ t.response.toList.filter (fun a => n.waiting.any (fun x => x.1 == a.1)),
      loop := if t.shutdown then .ended else .running }

/-- `cast_response!` does not panic (tower_lsp.rs:27-35). -/
def fits : Request → Answer Response → Bool
  | _, none => true
  | .initialize _ _, some (.initialize _) => true
  | .shutdown, some .shutdown => true
  | .formatting _ _, some (.edits _) => true
  | .rangeFormatting _ _ _, some (.rangeEdits _) => true
  | .viewFile _ _, some (.text _) => true
  | _, _ => false

/-- What is sent for a response (crates/lsp/src/tower_lsp.rs:160-181, 296-302). -/
def replyOf : Answer Response → Reply
  | some r => .result r
  | none => .failed

/-- The state of tower-lsp after the reply to a request. (tower-lsp, external; behind
crates/lsp/src/tower_lsp.rs:268-294) -/
def afterReply (s : Status) : Request → Answer Response → Status
  | .initialize _ _, some _ => if s = .initializing then .initialized else s
  | .initialize _ _, none => if s = .initializing then .uninitialized else s
  | _, _ => s

/-- A task gets its response (tower_lsp.rs:171-179), and the reply is sent. -/
def Net.finish (n : Net T) (id : Nat) (r : Request) (a : Answer Response) : Net T :=
  if fits r a then
    { n with
      waiting := n.waiting.filter (fun x => x.1 != id), answered := n.answered.filter (fun x => x.1 != id),
      sent := n.sent ++ [(id, replyOf a)],
      status := afterReply n.status r a }
  else { n with panicked := true }

/-- What the server can do next. A panic of a task ends the server (it runs in the same task as `serve`,
tower_lsp.rs:266-274). `orphan`: a task finds its response channel closed without a response
(`recv().await.unwrap()`, tower_lsp.rs:171), since the main loop is gone. -/
inductive Work : Net T → Net T → Prop
  | poll (n : Net T) (e : Event) (es : List Event) (hp : n.panicked = false) (h : n.queue = e :: es) :
      Work n (n.poll e es)
  | handle (n : Net T) (env : Env) (e : Event) (es : List Event) (hp : n.panicked = false) (hl : n.loop = .running)
      (h : n.channel = e :: es) : Work n (n.handle env e es)
  | finish (n : Net T) (id : Nat) (r : Request) (a : Answer Response) (hp : n.panicked = false)
      (hw : (id, r) ∈ n.waiting) (ha : (id, a) ∈ n.answered) : Work n (n.finish id r a)
  | orphan (n : Net T) (id : Nat) (r : Request) (hp : n.panicked = false) (hl : n.loop ≠ .running)
      (hw : (id, r) ∈ n.waiting) (ha : ∀ a, (id, a) ∉ n.answered) : Work n { n with panicked := true }

/-- Everything that can happen next. (crates/lsp/src/tower_lsp.rs:160-265, crates/lsp/src/main_loop.rs:270-313;
the scheduling is external) -/
inductive Step : Net T → Net T → Prop
  | receive (n : Net T) (m : Msg) (hp : n.panicked = false) : Step n (n.receive m)
  | work {n m : Net T} (h : Work n m) : Step n m

/-- The states of a server: any number of steps after the start. (executions of
crates/lsp/src/tower_lsp.rs:268-294) -/
inductive Reaches : Net T → Prop
  | start : Reaches {}
  | step {n m : Net T} (h : Reaches n) (s : Step n m) : Reaches m

end Verif.Transport
