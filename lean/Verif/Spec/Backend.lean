import Verif.Model.Backend
/-!
# Specification vocabulary for the backend

Everything here is defined on the list of events or on the trace of observable actions (newest first),
not on the backend's own bookkeeping.
-/

namespace Verif.Backend

/-- The code an event submits, with the key it is submitted under. -/
def submits : Ev → List (Key × Code)
  | .lookup _ _ k code => [(k, code)]
  | .compileJit k code _ _ => [(k, code)]
  | .prepareAot k code _ => [(k, code)]
  | _ => []

/-- Some caller submitted `code` under `k`. -/
def Submitted (evs : List Ev) (k : Key) (code : Code) : Prop := ∃ e ∈ evs, (k, code) ∈ submits e

/-- The event is caller `c`'s synchronous request for `k`. -/
def asksFor (e : Ev) (k : Key) (c : Nat) : Prop := ∃ code loads, e = .compileJit k code (some c) loads

/-- How often caller `c` made a synchronous request. -/
def askCount (evs : List Ev) (c : Nat) : Nat :=
  evs.countP fun e =>
    match e with
    | .compileJit _ _ n _ => n == some c
    | _ => false

/-- Code that may be compiled: not empty, and not longer than a non-zero limit. -/
def Eligible (cfg : Config) (code : Code) : Prop :=
  code ≠ [] ∧ (cfg.maxCodeLen = 0 ∨ code.length ≤ cfg.maxCodeLen)

/-- Compilations handed to the workers whose result has not been processed, oldest first. -/
def inFlight : List Act → List (Nat × Key)
  | [] => []
  | .dispatch i k _ :: r => inFlight r ++ [(i, k)]
  | .finished i _ :: r => (inFlight r).filter (·.1 ≠ i)
  | .stale i _ :: r => (inFlight r).filter (·.1 ≠ i)
  | _ :: r => inFlight r

/-- The part of a trace since the last clear. -/
def sinceClear : List Act → List Act
  | [] => []
  | .cleared :: _ => []
  | a :: r => a :: sinceClear r

/-- Results discarded because a clear came between dispatch and completion. -/
def discarded : List Act → Nat
  | [] => 0
  | .stale _ _ :: r => discarded r + 1
  | _ :: r => discarded r

/-- Misses on `k` processed since `k` started being tracked. -/
def missCount (k : Key) : List Act → Nat
  | [] => 0
  | .track q :: r => if q = k then 0 else missCount k r
  | .miss q :: r => if q = k then missCount k r + 1 else missCount k r
  | _ :: r => missCount k r

/-- No late result for `k` was discarded, and `k` was not evicted for being idle. -/
def undisturbed (k : Key) : List Act → Bool
  | [] => true
  | .stale _ q :: r => q ≠ k && undisturbed k r
  | .idleEvict q :: r => q ≠ k && undisturbed k r
  | _ :: r => undisturbed k r

/-- `P` holds at every dispatch of the trace, given the job, the key, the mode and what went before. -/
def AtDispatch (P : Nat → Key → Mode → List Act → Prop) (t : List Act) : Prop :=
  ∀ newer i k m older, t = newer ++ .dispatch i k m :: older → P i k m older

/-- Caller `c` is blocked on key `k`. -/
def Waiting (s : State) (c : Nat) (k : Key) : Prop :=
  (∃ j ∈ s.jobs, j.key = k ∧ j.notifier = some c) ∨ ∃ e, s.entries.get k = some e ∧ some c ∈ e.waiters

/-- The program under `k` has been idle for longer than the limit. -/
def Idle (cfg : Config) (s : State) (k : Key) : Prop :=
  ∃ d t, cfg.idle = some d ∧ s.residentMeta.get k = some t ∧ d < s.now - t

end Verif.Backend
