/-!
# Calling compiled code through the interpreter interface

Models `EvmCompilerFn::call_with_interpreter_inner` (`crates/revmc-context/src/lib.rs:310-348`), the LOG
builtin's hand-over of a log (`crates/revmc-builtins/src/lib.rs:618-630`) and `frame_run` and
`inspect_frame_run` of `JitEvm` (`crates/revmc-context/src/jit_evm.rs:120-150, 233-305, 327-346`).

A compiled function is a tree of steps on what the context gives it access to; the host, the frame and
what revm does with an action are arbitrary. Memory, stack and input are part of `rest`, which the
wrapper does not look at. The database error of a host call does not occur inside a function.
-/

namespace Verif.CallIf

/-- The results the wrapper distinguishes (`InstructionResult`). -/
inductive Res
  | outOfGas
  | selfDestruct
  | other (n : Nat)
deriving DecidableEq, Repr

/-- `Gas`: what is left, and the refund counter. -/
structure Gas where
  remaining : Nat
  refunded : Int
deriving DecidableEq, Repr

/-- `Gas::spend_all` (revm). -/
def Gas.spendAll (g : Gas) : Gas := { g with remaining := 0 }

/-- `InterpreterAction`: a new frame with some input, or a return. -/
inductive Action (N : Type)
  | newFrame (input : N)
  | ret (result : Res) (output : List UInt8) (gas : Gas)
deriving DecidableEq, Repr

/-- The parts of the interpreter that the wrapper handles: `bytecode.action`, `gas`, `return_data`,
the program counter; and the rest. -/
structure Interp (N R : Type) where
  action : Option (Action N)
  gas : Gas
  returnData : List UInt8
  pc : Nat
  rest : R
deriving DecidableEq, Repr

/-- `EvmContext` (context lib.rs:85-129) as far as compiled code may change it. `next_action` and
`rest` are references into the interpreter. -/
structure Ctx (H N R : Type) where
  host : H
  gas : Gas
  nextAction : Option (Action N)
  returnData : List UInt8
  resumeAt : Nat
  rest : R
deriving DecidableEq, Repr

/-- A compiled function: steps that depend on and change the context, LOG instructions, and the
result. -/
inductive Code (L H N R : Type)
  | ret (r : Res)
  | step (f : Ctx H N R → Ctx H N R) (next : Ctx H N R → Code L H N R)
  | log (mk : Ctx H N R → L) (next : Ctx H N R → Code L H N R)

variable {L H N R I : Type}

/-- The hand-over of a log (builtins lib.rs:623-628): to the host, then to the callback if there is
one. -/
def handLog (hostLog : H → L → H) (onLog : Option (I → L → I)) (c : Ctx H N R) (i : I) (l : L) :
    Ctx H N R × I :=
  match onLog with
  | some f => ({ c with host := hostLog c.host l }, f i l)
  | none => ({ c with host := hostLog c.host l }, i)

/-- Running compiled code (`EvmCompilerFn::call`, context lib.rs:364-371), with the callback's state. -/
def Code.run (hostLog : H → L → H) (onLog : Option (I → L → I)) :
    Code L H N R → Ctx H N R → I → Res × Ctx H N R × I
  | .ret r, c, i => (r, c, i)
  | .step f next, c, i => (next c).run hostLog onLog (f c) i
  | .log mk next, c, i =>
    (next c).run hostLog onLog (handLog hostLog onLog c i (mk c)).1 (handLog hostLog onLog c i (mk c)).2

/-- `EvmContext::from_interpreter_with_stack` (context lib.rs:159-189): the action is a reference to
the interpreter's, the resume point is its program counter. -/
def Ctx.ofInterp (x : Interp N R) (h : H) : Ctx H N R :=
  { host := h, gas := x.gas, nextAction := x.action, returnData := x.returnData, resumeAt := x.pc,
    rest := x.rest }

/-- `call_with_interpreter_inner` (context lib.rs:310-348). The callback is installed by `configure`. -/
def callInner (hostLog : H → L → H) (onLog : Option (I → L → I)) (f : Code L H N R) (x : Interp N R)
    (h : H) (i : I) : Action N × Interp N R × H × I :=
  let x := { x with action := none }
  let (result, c, i) := f.run hostLog onLog (Ctx.ofInterp x h) i
  let c := if result = .outOfGas then { c with gas := c.gas.spendAll } else c
  -- what the references have written is in the interpreter
  let x := { x with action := c.nextAction, rest := c.rest }
  let x := { x with gas := c.gas }
  let x := if c.returnData.isEmpty then { x with returnData := [] } else x
  let x := { x with pc := c.resumeAt }
  match x.action with
  | some a => (a, { x with action := none }, c.host, i)
  | none => (.ret result [] x.gas, x, c.host, i)

/-! ## Frames -/

/-- A frame: its interpreter, whether it has finished, and the rest. -/
structure Frame (N R X : Type) where
  interp : Interp N R
  finished : Bool
  data : X
deriving DecidableEq, Repr

/-- `ItemOrResult`: a frame to start, or the result of this one. -/
inductive Next (F T : Type)
  | item (f : F)
  | result (t : T)
deriving DecidableEq, Repr

/-- An inspector as used here: told of logs, of destroyed contracts, and of the end of a frame, where
it may change the result. -/
structure Insp (L I D T : Type) where
  log : I → L → I
  selfdestruct : I → D → I
  frameEnd : I → T → I × T

variable {X F T E D : Type}

/-- `EthFrame::process_next_action` (revm): any function of host, frame and action. -/
abbrev Process (H N R X F T E : Type) :=
  H → Frame N R X → Action N → H × Frame N R X × Except E (Next F T)

/-- `frame_run` with a compiled function at hand (jit_evm.rs:133-144). -/
def frameRun (hostLog : H → L → H) (p : Process H N R X F T E) (f : Code L H N R) (fr : Frame N R X)
    (h : H) : H × Frame N R X × Except E (Next F T) :=
  let (action, x, h, _) := callInner (I := Unit) hostLog none f fr.interp h ()
  let (h, fr, r) := p h { fr with interp := x } action
  match r with
  | .ok (.result t) => (h, { fr with finished := true }, .ok (.result t))
  | r => (h, fr, r)

/-- `inspect_selfdestruct` (jit_evm.rs:327-346): the inspector is told of the last journal entry if it
is a destroyed account or a transfer. `last` is this entry's contract, target and balance. -/
def inspectSelfdestruct (ins : Insp L I D T) (last : H → Option D) (h : H) (i : I) : I :=
  match last h with
  | some d => ins.selfdestruct i d
  | none => i

/-- The check of the action for SELFDESTRUCT (jit_evm.rs:278-284). -/
def noteDestroyed (ins : Insp L I D T) (last : H → Option D) (a : Action N) (h : H) (i : I) : I :=
  match a with
  | .ret .selfDestruct _ _ => inspectSelfdestruct ins last h i
  | _ => i

/-- `inspect_frame_run` with a compiled function at hand (jit_evm.rs:250-305). -/
def inspectFrameRun (hostLog : H → L → H) (p : Process H N R X F T E) (ins : Insp L I D T)
    (last : H → Option D) (f : Code L H N R) (fr : Frame N R X) (h : H) (i : I) :
    (H × Frame N R X × Except E (Next F T)) × I :=
  let (action, x, h, i) := callInner hostLog (some ins.log) f fr.interp h i
  let fr := { fr with interp := x }
  let i := noteDestroyed ins last action h i
  let (h, fr, r) := p h fr action
  match r with
  | .ok (.result t) =>
    let (i, t) := ins.frameEnd i t
    ((h, { fr with finished := true }, .ok (.result t)), i)
  | r => ((h, fr, r), i)

end Verif.CallIf
