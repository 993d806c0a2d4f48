import Verif.Model.Backend
/-!
# The EVM wrappers that choose an engine for each call frame

`crates/revmc-runtime/src/revm_evm.rs` (`JitEvm` over the backend) and
`crates/revmc-context/src/jit_evm.rs` (`JitEvm` over a fixed map and a callback).

A session is a list of operations on one `JitEvm`; a transaction holds `&mut self` for its whole
duration, so the fork and the backend change only between transactions. Inside a transaction revm's
loop initialises frames, runs the innermost one and returns from it; a frame is run again after each
call it makes. The plain and the inspected variant (`frame_run`, `inspect_frame_run`) choose the engine
in the same way and are one event here. Modelled is the choice of the engine; what the engines do to
the frame is not. `log`, `Frame.id` and `nextFrame` are bookkeeping for the specification.
-/

namespace Verif.JitEvm
open Verif.Backend (Key Program)

/-- Who executes a frame: `LookupDecision`, with the reason for interpreting left out. -/
inductive Engine
  | compiled (p : Program)
  | interpret
deriving DecidableEq, Repr

/-- A call frame: its code's hash. -/
structure Frame where
  id : Nat
  hash : BitVec 256
deriving DecidableEq, Repr

/-- One run of a frame. -/
structure Ran where
  frame : Nat
  hash : BitVec 256
  spec : SpecId
  engine : Engine
deriving DecidableEq, Repr

/-- `JitEvm` (revm_evm.rs:37-48) with the context's fork and frame stack, innermost frame first. -/
structure State where
  cache : AMap (BitVec 256) Engine
  cacheSpec : SpecId
  spec : SpecId
  frames : List Frame
  nextFrame : Nat
  log : List Ran

/-- `JitEvm::new` (revm_evm.rs:94-102). -/
def new (spec : SpecId) : State :=
  { cache := [], cacheSpec := spec, spec, frames := [], nextFrame := 0, log := [] }

/-- `invalidate_cache` (revm_evm.rs:104-112). -/
def invalidateCache (s : State) : State :=
  if s.spec ≠ s.cacheSpec then { s with cache := [], cacheSpec := s.spec } else s

/-- What happens inside a transaction. -/
inductive FrameEv
  /-- `frame_init` pushes a frame (revm_evm.rs:168-176). -/
  | init (hash : BitVec 256)
  /-- The innermost frame is run; `answer` is what the backend would reply to a lookup at this moment. -/
  | run (answer : Key → Engine)
  /-- The innermost frame returns to its caller. -/
  | ret

/-- The decision of `frame_run` (revm_evm.rs:179-191) and `inspect_frame_run` (revm_evm.rs:345-361). -/
def decide (s : State) (answer : Key → Engine) (hash : BitVec 256) : Engine :=
  match s.cache.get hash with
  | some e => e
  | none => answer ⟨hash, s.spec⟩

/-- `frame_run` (revm_evm.rs:179-207). -/
def frameRun (s : State) (answer : Key → Engine) (f : Frame) : State :=
  { s with
    cache := match s.cache.get f.hash with
      | some _ => s.cache
      | none => s.cache.insert f.hash (decide s answer f.hash)
    log := ⟨f.id, f.hash, s.spec, decide s answer f.hash⟩ :: s.log }

def frameStep (s : State) : FrameEv → State
  | .init hash => { s with frames := ⟨s.nextFrame, hash⟩ :: s.frames, nextFrame := s.nextFrame + 1 }
  | .run answer =>
    match s.frames with
    | [] => s
    | f :: _ => frameRun s answer f
  | .ret => { s with frames := s.frames.tail }

/-- Operations on a `JitEvm`. -/
inductive Op
  /-- The context's fork is changed (`DerefMut`, revm_evm.rs:124-129). -/
  | setSpec (spec : SpecId)
  /-- `set_backend` (revm_evm.rs:76-79). -/
  | setBackend
  /-- `transact_one`, `replay`, `inspect_one_tx` and the system-call variants (revm_evm.rs:231-258, 279-294,
  418-424, 441-456): invalidate the cache, then run frames. -/
  | transact (evs : List FrameEv)

/-- One operation. The frame stack is empty between transactions. -/
def opStep (s : State) : Op → State
  | .setSpec spec => { s with spec }
  | .setBackend => { s with cache := [] }
  | .transact evs => { evs.foldl frameStep { invalidateCache s with frames := [] } with frames := [] }

def session (s : State) (ops : List Op) : State := ops.foldl opStep s

/-! ## The wrapper of the context crate -/

/-- `JitEvm::frame_run` of `revmc-context` (jit_evm.rs:120-131, also 233-248): the fixed map first, then the
callback, which is asked again on every run. `onMiss` is its answer at this moment. -/
def mapDecide (functions : AMap (BitVec 256) Program) (onMiss : BitVec 256 → Option Program) (hash : BitVec 256) :
    Engine :=
  match functions.get hash with
  | some p => .compiled p
  | none =>
    match onMiss hash with
    | some p => .compiled p
    | none => .interpret

/-- The runs of one frame of code `hash`, given the callback's answers at each run. -/
def mapRuns (functions : AMap (BitVec 256) Program) (hash : BitVec 256)
    (answers : List (BitVec 256 → Option Program)) : List Engine :=
  answers.map fun a => mapDecide functions a hash

end Verif.JitEvm
