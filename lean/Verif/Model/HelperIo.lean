import Verif.Model.Opcode
/-!
# Talking to the out-of-process helper

Models the request/response half of `crates/revmc-runtime/src/runtime/out_of_process.rs`:
`HelperProcessInner::compile`, `HelperProcessInner::pause`, and the reader thread. Each event below
is one atomic action of one thread (a lock-protected map operation, a channel operation, or a write
to the helper's input); any interleaving of any number of callers is a list of events. The helper
process itself is arbitrary: its responses are events chosen freely.
-/

namespace Verif.HelperIo

/-- The job results are opaque (`HelperJobResult`, out_of_process.rs:85-88). -/
abbrev Result := Nat

/-- `HelperResponseMessage` (out_of_process.rs:585-588). -/
inductive Msg
  | job (id : Nat) (r : Result)
  | paused (id : Nat)
deriving DecidableEq, Repr

/-- What travels through a caller's one-slot channel: `Ok(result)`, `Ok(())`, or the reader's error
(out_of_process.rs:217-236). -/
inductive Payload
  | result (r : Result)
  | ack
  | readerError
deriving DecidableEq, Repr

/-- How `compile` (for a job) or the wait in `pause` (for a pause request) ends. -/
inductive Answer
  | received (p : Payload)
  | writeFailed
  | timedOut
  | disconnected
deriving DecidableEq, Repr

/-- Jobs and pause requests share the id counter but have separate tables
(out_of_process.rs:42-43, 267, 333). -/
inductive Kind
  | job | pause
deriving DecidableEq, Repr

/-- Where a caller is inside `compile`/`pause`. -/
inductive Phase
  /-- Registered in the table, request not yet written (out_of_process.rs:267-269, 333-335). -/
  | registered
  /-- Blocked in `rx.recv_timeout` (out_of_process.rs:284, 349). -/
  | waiting
  /-- The wait timed out; the entry is still to be removed (out_of_process.rs:289-291, 356-357). -/
  | expiring
  | done (a : Answer)
deriving DecidableEq, Repr

/-- `HelperProcessInner` (out_of_process.rs:168-180) and its callers. -/
structure State where
  nextId : Nat
  /-- Keys of `pending` and `pending_pauses`: the table holds the sender of the caller's channel. -/
  pending : Kind → List Nat
  /-- Contents of each caller's `chan::bounded(1)`. -/
  chan : Nat → Option Payload
  /-- Callers by id. -/
  caller : Nat → Option (Kind × Phase)
  readerAlive : Bool
  /-- A second message was sent into a full channel (the reader thread would block forever). -/
  readerStuck : Bool

/-- State right after `spawn` (out_of_process.rs:199-253). -/
def init : State where
  nextId := 0
  pending := fun _ => []
  chan := fun _ => none
  caller := fun _ => none
  readerAlive := true
  readerStuck := false

/-- One atomic action. -/
inductive Ev
  /-- A caller takes an id and registers (out_of_process.rs:267-269 / 333-335). The counter update and
  the map insertion are two atomic actions; the id is not known to anyone in between, so they are
  merged. -/
  | submit (k : Kind)
  /-- The request was written and flushed (out_of_process.rs:271-281 / 337-340). -/
  | wrote (id : Nat)
  /-- Writing failed: the caller removes its entry and returns (out_of_process.rs:273-280 / 342-345). -/
  | writeFail (id : Nat)
  /-- The reader decodes a response (out_of_process.rs:214-226). -/
  | read (m : Msg)
  /-- The reader fails or sees the end of the stream (out_of_process.rs:227-236). -/
  | readFail
  /-- The caller takes the message from its channel (out_of_process.rs:285 / 350-355). -/
  | recv (id : Nat)
  /-- `recv_timeout` reports a timeout; `paused` is the value of the pause flag
  (out_of_process.rs:286-289 / 356). -/
  | timeout (id : Nat) (paused : Bool)
  /-- The caller removes its entry after a timeout and returns (out_of_process.rs:291-297 / 357-359). -/
  | expire (id : Nat)
  /-- `recv_timeout` reports that the sender is gone (out_of_process.rs:299-308 / 361-364). -/
  | disconnect (id : Nat)
deriving DecidableEq, Repr

/-- Function update. -/
def upd {α : Type} (f : Nat → α) (i : Nat) (v : α) : Nat → α := fun j => if j = i then v else f j

/-- `reader_pending.lock().unwrap().remove(&id)` and `tx.send` (out_of_process.rs:217-226). -/
def deliver (s : State) (k : Kind) (id : Nat) (p : Payload) : State :=
  if id ∈ s.pending k then
    { s with
      pending := fun k' => if k' = k then (s.pending k).filter (· ≠ id) else s.pending k'
      chan := upd s.chan id (some p)
      readerStuck := s.readerStuck || (s.chan id).isSome }
  else s

/-- `pending.lock().unwrap().remove(&id)` by the caller. -/
def forget (s : State) (k : Kind) (id : Nat) : State :=
  { s with pending := fun k' => if k' = k then (s.pending k).filter (· ≠ id) else s.pending k' }

/-- One action; an action whose guard does not hold leaves the state unchanged. -/
def step (s : State) : Ev → State
  | .submit k =>
    { s with
      nextId := s.nextId + 1
      pending := fun k' => if k' = k then s.nextId :: s.pending k else s.pending k'
      caller := upd s.caller s.nextId (some (k, .registered)) }
  | .wrote id =>
    match s.caller id with
    | some (k, .registered) => { s with caller := upd s.caller id (some (k, .waiting)) }
    | _ => s
  | .writeFail id =>
    match s.caller id with
    | some (k, .registered) =>
      { forget s k id with caller := upd s.caller id (some (k, .done .writeFailed)) }
    | _ => s
  | .read m =>
    if s.readerAlive then
      match m with
      | .job id r => deliver s .job id (.result r)
      | .paused id => deliver s .pause id .ack
    else s
  | .readFail =>
    if s.readerAlive then
      { s with
        pending := fun _ => []
        chan := fun id =>
          if id ∈ s.pending .job ∨ id ∈ s.pending .pause then some .readerError else s.chan id
        readerStuck := s.readerStuck ||
          (s.pending .job ++ s.pending .pause).any fun id => (s.chan id).isSome
        readerAlive := false }
    else s
  | .recv id =>
    match s.caller id, s.chan id with
    | some (k, .waiting), some p =>
      { s with caller := upd s.caller id (some (k, .done (.received p))), chan := upd s.chan id none }
    | _, _ => s
  | .timeout id paused =>
    match s.caller id, s.chan id with
    | some (.job, .waiting), none =>
      if paused then s else { s with caller := upd s.caller id (some (.job, .expiring)) }
    | some (.pause, .waiting), none => { s with caller := upd s.caller id (some (.pause, .expiring)) }
    | _, _ => s
  | .expire id =>
    match s.caller id with
    | some (k, .expiring) =>
      { forget s k id with caller := upd s.caller id (some (k, .done .timedOut)) }
    | _ => s
  | .disconnect id =>
    match s.caller id, s.chan id with
    | some (k, .waiting), none =>
      if id ∈ s.pending k then s
      else { s with caller := upd s.caller id (some (k, .done .disconnected)) }
    | _, _ => s

/-- Any interleaving. -/
def run (s : State) (evs : List Ev) : State := evs.foldl step s

end Verif.HelperIo
