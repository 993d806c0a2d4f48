import Verif.Model.Session
/-!
# Model: compile workers and the handles that own compiled code

`crates/revmc-runtime/src/runtime/worker.rs`, `crates/revmc-runtime/src/runtime/backend.rs` and the dylib
guards of `crates/revmc-llvm/src/lib.rs`. A job and the drop of a handle are one step each; the compilers
of different workers share nothing but ORC, whose calls are atomic.
-/

namespace Verif.Workers
open Verif.Session

/-- `JitSuccess` with its `JitCodeBacking` (worker.rs:144-182): the function pointer, the tracker and the
guarded dylib. -/
structure Handle where
  addr : Nat
  tracker : Nat
  dylib : Nat
deriving DecidableEq, Repr

/-- `CompilerState` (worker.rs:499-513). -/
structure Worker where
  comp : Comp
  count : Nat
deriving DecidableEq, Repr

/-- The process: ORC, the workers' thread-local `JIT_COMPILER` (worker.rs:515-519) and the handles alive. -/
structure Pool where
  jit : Jit
  workers : AMap Nat Worker
  handles : AMap Nat Handle
  next : Nat
deriving DecidableEq, Repr

/-- The outcome of `compile_jit_artifact`. -/
inductive Out
  | ok (h : Handle)
  | failed
  | panic
deriving DecidableEq, Repr

/-- `compile_jit_artifact` (worker.rs:545-569) with `EvmCompiler::jit` (compiler/mod.rs:466-474),
`jit_dylib_guard` (lib.rs:812-820) and `take_last_resource_tracker` (804-810). -/
def compile (j : Jit) (c : Comp) (n : Name) (code : Code) (parsed uses opt link : Bool) : Jit × Comp × Out :=
  let (j, c, r) := translate j c n code parsed uses
  match r with
  | .id id =>
    let (j, c, r) := jitFunction j c id opt link
    match r with
    | .addr a =>
      match c.orc with
      | none => (j, c, .panic)
      | some o =>
        match takeTracker c with
        | (c, none) => (j, c, .panic)
        | (c, some t) => (j, c, .ok ⟨a, t, o.dylib⟩)
    | .err => (j, c, .failed)
    | _ => (j, c, .panic)
  | .err => (j, c, .failed)
  | _ => (j, c, .panic)

/-- Does a compiler or a handle keep dylib `d`? (the count of the `Arc<JitDylibGuard>`) -/
def kept (workers : AMap Nat Worker) (handles : AMap Nat Handle) (d : Nat) : Bool :=
  (workers.any fun w => w.2.comp.orc.any fun o => o.dylib == d) || handles.any fun h => h.2.dylib == d

/-- A guard of dylib `d` was dropped (`JitDylibGuard::drop`, lib.rs:362-366, 307-315). -/
def release (j : Jit) (workers : AMap Nat Worker) (handles : AMap Nat Handle) (d : Nat) : Jit :=
  if kept workers handles d then j else j.clearDylib d

/-- A compiler was dropped (`OrcJitState`, lib.rs:372-396: the guard, then the trackers). -/
def releaseComp (j : Jit) (workers : AMap Nat Worker) (handles : AMap Nat Handle) (c : Comp) : Jit :=
  match c.orc with
  | none => j
  | some o => release j workers handles o.dylib

/-- What a step returns. -/
inductive Ret
  | handle (h a : Nat)
  | failed
  | panic
  | done
deriving DecidableEq, Repr

/-- The worker's compiler, created if missing (worker.rs:431-446). -/
def stateOf (p : Pool) (w : Nat) (created : Bool) : Option Worker :=
  match p.workers.get w with
  | some s => some s
  | none => if created then some ⟨Comp.new false, 0⟩ else none

/-- After a job: `clear_ir`, and a new compiler after `limit` jobs, if one can be created
(worker.rs:470-488). -/
def settle (limit : Nat) (p : Pool) (w : Nat) (c : Comp) (count : Nat) (recreated : Bool) : Pool :=
  let c := clearIr c
  if limit > 0 && count + 1 ≥ limit then
    if recreated then
      let workers := p.workers.insert w ⟨Comp.new false, 0⟩
      { p with jit := releaseComp p.jit workers p.handles c, workers }
    else { p with workers := p.workers.insert w ⟨c, 0⟩ }
  else { p with workers := p.workers.insert w ⟨c, count + 1⟩ }

/-- `compile_with_state` for `CompilerTarget::Jit` (worker.rs:415-497) on worker `w`. `created`: a missing
compiler can be created; `recreated`: a replacement can be. -/
def job (limit : Nat) (p : Pool) (w : Nat) (n : Name) (code : Code)
    (parsed uses opt link created recreated : Bool) : Pool × Ret :=
  match stateOf p w created with
  | none => (p, .failed)
  | some s =>
    let (j, c, out) := compile p.jit s.comp n code parsed uses opt link
    match out with
    | .panic => (p, .panic)
    | .failed => (settle limit { p with jit := j } w c s.count recreated, .failed)
    | .ok h =>
      (settle limit { p with jit := j, handles := p.handles.insert p.next h, next := p.next + 1 } w c s.count recreated,
        .handle p.next h.addr)

/-- `JitObjectLinker::link` (backend.rs:76-105) with `link_jit_object_in_fresh_dylib` (lib.rs:782-797) and
`link_jit_object_in_dylib` (456-468): the object's function goes to a dylib of its own. `found`: the
object is accepted and the symbol resolves; otherwise the guard is dropped again. -/
def linkObject (p : Pool) (n : Name) (code : Code) (found : Bool) : Pool × Ret :=
  let d := p.jit.nextDylib
  let t := p.jit.nextTracker
  let j := { p.jit with nextDylib := d + 1, nextTracker := t + 1 }
  match j.add d t 0 [(n, code)] with
  | none => (⟨release j p.workers p.handles d, p.workers, p.handles, p.next⟩, .failed)
  | some j =>
    if !found then (⟨release j p.workers p.handles d, p.workers, p.handles, p.next⟩, .failed)
    else
      match j.lookup d n with
      | none => (⟨release j p.workers p.handles d, p.workers, p.handles, p.next⟩, .failed)
      | some a => (⟨j, p.workers, p.handles.insert p.next ⟨a, t, d⟩, p.next + 1⟩, .handle p.next a)

/-- The last owner of a handle drops it: `JitCodeBacking::drop` (worker.rs:172-182), then its guard. -/
def dropHandle (p : Pool) (h : Nat) : Pool × Ret :=
  match p.handles.get h with
  | none => (p, .done)
  | some x =>
    let handles := p.handles.erase h
    (⟨release (p.jit.removeTracker x.tracker) p.workers handles x.dylib, p.workers, handles, p.next⟩, .done)

/-- `clear_thread_local_compilers` (worker.rs:352-355) on worker `w`, when the pool shuts down. -/
def exitWorker (p : Pool) (w : Nat) : Pool × Ret :=
  match p.workers.get w with
  | none => (p, .done)
  | some s =>
    let workers := p.workers.erase w
    (⟨releaseComp p.jit workers p.handles s.comp, workers, p.handles, p.next⟩, .done)

/-- A step of the process. -/
inductive Ev
  | job (w : Nat) (n : Name) (code : Code) (parsed uses opt link created recreated : Bool)
  | linkObject (n : Name) (code : Code) (found : Bool)
  | dropHandle (h : Nat)
  | exitWorker (w : Nat)
deriving DecidableEq, Repr

/-- One step, with `compiler_recycle_threshold = limit`. -/
def step (limit : Nat) (p : Pool) : Ev → Pool × Ret
  | .job w n code parsed uses opt link created recreated =>
    job limit p w n code parsed uses opt link created recreated
  | .linkObject n code found => linkObject p n code found
  | .dropHandle h => dropHandle p h
  | .exitWorker w => exitWorker p w

end Verif.Workers
