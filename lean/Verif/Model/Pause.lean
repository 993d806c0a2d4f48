/-!
# Pause and resume

Models `JitBackend::pause`, `JitBackend::resume`, `try_send_control`
(`crates/revmc-runtime/src/runtime/mod.rs:376-418`), the backend's handling of the two commands
(`backend.rs:229-230`), and the pause flag with the helper's state
(`HelperProcess::{pause,resume,compile}`, `out_of_process.rs:105-166`).
Each event is one atomic action of one thread. Not modelled: the time-outs of the graceful pause
request (the stop signal is sent in every case, `out_of_process.rs:367`) and failing signals.
-/

namespace Verif.Pause

/-- `Command::Pause` / `Command::Resume` (backend.rs:136-139); `other` is any other command occupying
a slot of the bounded channel. -/
inductive Cmd
  | pause | resume | other
deriving DecidableEq, Repr

structure State where
  /-- `BackendShared::pause_depth` (mod.rs:88). -/
  depth : Nat
  /-- Threads that have decided to send a command and have not sent it yet. -/
  toSend : List Cmd
  /-- The bounded command channel (mod.rs:104), oldest first. -/
  queue : List Cmd
  /-- `BackendInner::started` (mod.rs:96). -/
  started : Bool
  /-- `HelperProcess::paused` (out_of_process.rs:96). -/
  flag : Bool
  /-- The helper process group is stopped (`none`: no helper is running). -/
  helper : Option Bool
  /-- `commands_dropped`. -/
  dropped : Nat
deriving DecidableEq, Repr

/-- `BackendShared` after construction (mod.rs:183-188), backend thread started or not. -/
def init (started : Bool) : State :=
  { depth := 0, toSend := [], queue := [], started, flag := false, helper := none, dropped := 0 }

inductive Ev
  /-- The atomic `fetch_add` of `pause` (mod.rs:377). -/
  | pauseAtomic
  /-- The atomic `fetch_update` of `resume` (mod.rs:386-392). -/
  | resumeAtomic
  /-- The `i`-th thread that owes a command executes `try_send_control` (mod.rs:411-418). -/
  | send (i : Nat)
  /-- Another command enters the channel. -/
  | other
  /-- The backend thread handles the oldest command (backend.rs:222-235). -/
  | drain
  /-- A worker finds no helper and spawns one (out_of_process.rs:106-127). -/
  | spawn
  /-- The helper is discarded or killed (out_of_process.rs:135-149). -/
  | discard
deriving DecidableEq, Repr

/-- `try_send_control` (mod.rs:411-418) with channel capacity `cap`. -/
def trySend (cap : Nat) (s : State) (c : Cmd) : State :=
  if !s.started then s
  else if s.queue.length < cap then { s with queue := s.queue ++ [c] }
  else { s with dropped := s.dropped + 1 }

/-- `Command::Pause => self.workers.pause()`, `Command::Resume => self.workers.resume()`
(backend.rs:229-230, worker.rs:284-291, out_of_process.rs:151-166). -/
def handle (s : State) : Cmd → State
  | .pause => { s with flag := true, helper := s.helper.map fun _ => true }
  | .resume => { s with flag := false, helper := s.helper.map fun _ => false }
  | .other => s

def step (cap : Nat) (s : State) : Ev → State
  | .pauseAtomic =>
    { s with depth := s.depth + 1, toSend := if s.depth = 0 then s.toSend ++ [.pause] else s.toSend }
  | .resumeAtomic =>
    { s with depth := s.depth - 1, toSend := if s.depth = 1 then s.toSend ++ [.resume] else s.toSend }
  | .send i =>
    match s.toSend[i]? with
    | none => s
    | some c => trySend cap { s with toSend := s.toSend.eraseIdx i } c
  | .other => if s.queue.length < cap then { s with queue := s.queue ++ [.other] } else s
  | .drain =>
    match s.queue with
    | [] => s
    | c :: r => handle { s with queue := r } c
  | .spawn =>
    match s.helper with
    | none => { s with helper := some s.flag }
    | some _ => s
  | .discard => { s with helper := none }

def run (cap : Nat) (s : State) (evs : List Ev) : State := evs.foldl (step cap) s

end Verif.Pause
