import Verif.Model.Whole
/-!
# Suspending and resuming compiled code

A compiled function does not call: at CALL and CREATE instructions it returns to its caller, having stored its
stack and a resume point, and is called again with the result pushed. `Model/Whole.lean` treats such a round trip
as one step; here it is spelled out: the calls of the function, its own stack memory, the copies from and to the
caller's stack, and the table of resume points (`crates/revmc-codegen/src/compiler/translate/mod.rs`, `translate`
and `suspend`; `crates/revmc-context/src/lib.rs`, `ResumeAt` and `call_with_interpreter`).

Simplifications: as in `Model/Whole.lean`; the buffers have no lower end (nothing below 0 is accessed).
-/

namespace Verif
variable {E F : Type}

/-- What the caller keeps for a frame between calls of its function: the interpreter's program counter, which holds the
resume point (`ResumeAt::load`/`store`, context lib.rs:42-53), and its stack. -/
structure Caller where
  pc : Nat := 0
  buf : Int → Word
  len : Int := 0

/-- Whether translating an instruction gets to `suspend` (translate/mod.rs:563-660, 1386-1401). -/
def Compiled.suspends (C : Compiled) (x : Nat × InstData) : Bool :=
  !(x.2.flags.disabled || x.2.flags.unknown) && !x.2.flags.noop &&
    !(decide (0 < x.2.stackIo.2) && (C.ai.constOutput x.1).isSome) && x.2.maySuspend

/-- The suspending instructions in the order of translation (translate/mod.rs:314-317). -/
def Compiled.suspending (C : Compiled) : List Nat := ((C.blocks.flatMap (·.insts)).filter C.suspends).map (·.1)

/-- `resume_blocks` (translate/mod.rs:1404-1426): for each suspending instruction the instruction after it. -/
def Compiled.resumes (C : Compiled) : List Nat := C.suspending.map (· + 1)

/-- `calc_may_suspend` (bytecode/mod.rs:571-574). -/
def Compiled.maySuspend (C : Compiled) : Bool := (C.blocks.flatMap (·.insts)).any fun x => x.2.maySuspend

/-- A CALL or CREATE up to the branch to the suspend block: the new length is stored, the builtin runs on its
operands, and the live stack is written back (translate/mod.rs:606-628, 1386-1406). Also the words that the caller
will push. -/
def SCx.callOut (t : TInst E) (cx : SCx E) : SCx E × List Word :=
  let cx := { cx with lenOff := 0 }
  let newOff := cx.secOff + t.diff
  let cx := if newOff = cx.storedOff then cx
    else { cx with lenVar := cx.startLen + newOff, storedOff := newOff }
  let cx := SCx.spAfterInputs t cx
  let r := t.act (cx.memArgs t.inp)
  (({ cx with mem := SCx.writeOut { t with out := 0 } (cx.startLen + cx.secOff - t.inp) [] cx.mem
    }.ran r.2).materializeLive, r.1)

/-- How straight-line code is left. -/
inductive FRes (E : Type)
  | finished (cx : SCx E)
  | fail (f : StackFail) (cx : SCx E)
  | bad (i : Nat) (cx : SCx E)
  /-- at the branch to the suspend block, in instruction `i`; the caller will push `ws` -/
  | suspended (i : Nat) (cx : SCx E) (ws : List Word)
  | panic

/-- The instructions of a section after its head (translate/mod.rs:501-660). -/
def Compiled.frameSteps (C : Compiled) (f : Nat × InstData → TInst E) : List (Nat × InstData) → SCx E → FRes E
  | [], cx => .finished cx
  | x :: xs, cx =>
    if badImm C.code x then .bad x.1 cx
    else if C.suspends x then .suspended x.1 (SCx.callOut (f x) cx).1 (SCx.callOut (f x) cx).2
    else match SCx.step (f x) cx with
      | none => .panic
      | some cx => match xs with
        | [] => .finished (if (f x).lower.leaves then cx else cx.materializeLive)
        | _ :: _ => C.frameSteps f xs cx.relieve

/-- The sections of a block from a section head on (translate/mod.rs:569-613). -/
def Compiled.frameSections (C : Compiled) (f : Nat × InstData → TInst E) :
    List (List (Nat × InstData)) → SCx E → FRes E
  | [], cx => .finished cx
  | s :: rest, cx =>
    match headCheck (s.map f) cx with
    | some e => .fail e cx
    | none =>
      match C.frameSteps f s (SCx.head (s.map f) cx) with
      | .finished cx => C.frameSections f rest cx
      | r => r

/-- Where a frame is. -/
inductive Act (F : Type)
  /-- in its function, at instruction `i`, after `k` instructions; arrived there by being resumed, or not -/
  | inside (resumed : Bool) (c : Caller) (k i : Nat) (cx : SCx (Option F))
  /-- suspended after `k` instructions; the caller is about to push `w` and to call the function again -/
  | outside (c : Caller) (k : Nat) (w : Word) (trace : List (Ev (Option F)))
  | done (o : COut F)

/-- The suspend block (translate/mod.rs:403-417): the resume point is stored in the context and from there in the
program counter (context lib.rs:315-329); with a stack of its own the function copies the live stack to the
caller's, otherwise it has been working there; the length is stored (by the return block, translate/mod.rs:456-464,
if the stack is inspected). -/
def Caller.save (inspect : Bool) (c : Caller) (point : Nat) (cx : SCx E) : Caller :=
  { pc := point
    buf := if inspect then cx.mem else fun a => if a < cx.lenVar then cx.mem a else c.buf a
    len := cx.lenVar }

/-- What the caller has on its stack, bottom first. -/
def Caller.stack (c : Caller) : List Word := (List.range c.len.toNat).map fun (k : Nat) => c.buf k

/-- The caller pushes a word; above it there may be anything. -/
def Caller.push (junk : Int → Word) (c : Caller) (w : Word) : Caller :=
  { c with buf := fun a => if a < c.len then c.buf a else if a = c.len then w else junk a, len := c.len + 1 }

/-- The function is called (translate/mod.rs:344-401): where it starts and with which stack. Without suspending
instructions, or at resume point 0, at the first instruction with an empty stack, or the caller's if it is inspected;
otherwise at the resume point, with the caller's stack. Its own stack holds anything at first (`fresh`). `none` is the
panic on an invalid resume point. -/
def Compiled.enter (C : Compiled) (inspect : Bool) (fresh : Int → Word) (c : Caller) (trace : List (Ev (Option F))) :
    Option (Nat × SCx (Option F)) :=
  let load : Int → Word := if inspect then c.buf else fun a => if a < c.len then c.buf a else fresh a
  if C.maySuspend = false ∨ c.pc = 0 then
    some (0, { mem := if inspect then load else fresh, lenVar := if inspect then c.len else 0, trace })
  else (C.resumes[c.pc - 1]?).map fun i => (i, { mem := load, lenVar := c.len, trace })

/-- The resume point of instruction `i` (translate/mod.rs:1408-1417): its position among the suspending
instructions, plus one. -/
def Compiled.point (C : Compiled) (i : Nat) : Option Nat := (C.suspending.findIdx? (· == i)).map (· + 1)

/-- The code of a block from instruction `i` on, after `k` instructions. There is code for this only if `i` is the
first instruction of a block or, after a suspension, the head of a section; otherwise it is a panic. -/
def Compiled.blockFrom (C : Compiled) (inspect : Bool) (env : Env F) (junk : Nat → Int → Word)
    (resumed : Bool) (c : Caller) (k i : Nat) (cx : SCx (Option F)) : Act F :=
  match C.blocks.find? fun b => if resumed then decide (b.start ≤ i ∧ i < b.stop) else b.start == i with
  | none => .done .panic
  | some b =>
    let k0 := k - (i - b.start)
    let ss := (splitSections C.spec b.insts).dropWhile fun s => s.head?.map Prod.fst != some i
    if ss = [] then .done .panic
    else
    match C.frameSections (toT C.code C.ai (actOf C.code C.prog env k0 b.start) (clobAt junk k0 b.start)) ss cx with
    | .finished cx =>
      match C.leave k0 b cx with
      | .running k i cx => .inside false c k i cx
      | o => .done o
    | .fail f cx => .done (.stackError f cx)
    | .bad i cx => .done (.badImmediate i cx)
    | .panic => .done .panic
    | .suspended j cx ws =>
      match C.point j with
      | none => .done .panic
      | some point =>
        let c := c.save inspect point cx
        .outside c (k0 + (j - b.start) + 1) (ws.headD 0) (.suspended c.stack :: cx.trace)

/-- One step of a frame: a block or what is left of it, or a return to its function. `junk n` is what the `n`-th
instruction leaves in the stack slots above its results; if it suspends, what is in the function's own stack memory
when it is called again, or in the caller's above the pushed word. -/
def Compiled.frameStep (C : Compiled) (inspect : Bool) (env : Env F) (junk : Nat → Int → Word) : Act F → Act F
  | .inside resumed c k i cx => C.blockFrom inspect env junk resumed c k i cx
  | .outside c k w trace =>
    let c := c.push (junk (k - 1)) w
    match C.enter inspect (junk (k - 1)) c trace with
    | none => .done .panic
    | some (i, cx) => .inside true c k i cx
  | .done o => .done o

/-- A frame from the first call of its function, with an empty stack in a buffer of the caller (context lib.rs:287-337);
`n` steps. -/
def Compiled.frame (C : Compiled) (inspect : Bool) (env : Env F) (junk : Nat → Int → Word) (fresh buf : Int → Word) :
    Nat → Act F
  | 0 =>
    match C.enter inspect fresh { buf } [] with
    | none => .done .panic
    | some (i, cx) => .inside false { buf } 0 i cx
  | n + 1 => C.frameStep inspect env junk (C.frame inspect env junk fresh buf n)

end Verif
