import Verif.Model.Whole
import Verif.Model.Sections
/-!
# Gas in a whole compiled program

Adds the gas counter to `Model/Whole.lean`: the static gas of every section is charged at its head
(translate/mod.rs:576-577, sections.rs), the rest by the code of the instructions. Metering is on
(`CompilerOpts::gas_metering`). The sections of memory expansion (memory_sections.rs) are not part of this model:
expansion is charged by the instruction that causes it (C22 is about that difference).
-/

namespace Verif
variable {F : Type}

/-- Whether the code of the EXP at `i` charges gas when it runs (translate/mod.rs:633-648, 745-748,
peephole.rs:250-253). -/
def expPaid (ai : AIState) (i : Nat) : Bool :=
  expRuntimeCharge (ai.constOperand i 0) (ai.constOperand i 1) (ai.constOutput i) none none

/-- The effect of an instruction together with the gas its code charges. -/
abbrev Paid (F : Type) := Option F × Nat

/-- What the code of an instruction charges when it runs (`gas!` in the builtins, revmc-builtins/src/lib.rs), if its
dynamic cost is `dyn k i args`: all of it, except that an EXP whose cost was folded into the section charges nothing
(sections.rs:228-236). -/
def Compiled.charge (C : Compiled) (dyn : Nat → Nat → List Word → Nat) (k i : Nat) (args : List Word) : Nat :=
  match C.prog.insts[i]? with
  | none => 0
  | some d => if d.opcode == op.EXP && !expPaid C.ai i then 0 else dyn k i args

/-- The world together with the charges: an instruction that has no effect and charges nothing shows nothing. -/
def Compiled.gasEnv (C : Compiled) (env : Env F) (dyn : Nat → Nat → List Word → Nat) : Env (Paid F) :=
  fun k i args =>
    ((env k i args).1,
      match (env k i args).2, C.charge dyn k i args with
      | none, 0 => none
      | e, n => some (e, n))

/-- The gas charged by the events of compiled code. -/
def spent : List (Ev (Option (Paid F))) → Nat
  | [] => 0
  | .ran (some x) :: l => x.2 + spent l
  | _ :: l => spent l

/-- The instructions whose result depends on the remaining gas: GAS (translate/mod.rs:1072-1078), SSTORE from
Istanbul on (revmc-builtins/src/lib.rs:527-532), calls (lib.rs:681, 766) and creations (lib.rs:780). The other uses
of the counter (`skip_cold`: lib.rs:493, utils.rs:62, lib.rs:873) only skip a load whose cost exceeds it. -/
def readsCounter (spec : SpecId) (d : InstData) : Bool :=
  d.opcode == op.GAS || (d.opcode == op.SSTORE && decide (6 ≤ spec)) ||
    [op.CREATE, op.CALL, op.CALLCODE, op.DELEGATECALL, op.CREATE2, op.STATICCALL].contains d.opcode

/-- An instruction of a block with what matters for gas: it is the `k`-th executed one, at index `idx`. -/
structure GInst (F : Type) where
  k : Nat
  idx : Nat
  reads : Bool
  bad : Bool
  t : TInst (Option (Paid F))

/-- The outcome of straight-line code with gas; `rd` are the values of the counter that were read, latest first. -/
inductive GChk (F : Type)
  | done (cx : SCx (Option (Paid F))) (g : Nat) (rd : List (Nat × Nat))
  | fail (f : StackFail) (cx : SCx (Option (Paid F)))
  | bad (i : Nat) (cx : SCx (Option (Paid F)))
  | outOfGas
  | panic

/-- The instructions of a section, after its head (translate/mod.rs:544-556, 607-1172): each charges what its events
say (translate/mod.rs:1669-1684). -/
def gasSteps : List (GInst F) → SCx (Option (Paid F)) → Nat → List (Nat × Nat) → GChk F
  | [], cx, g, rd => .done cx g rd
  | x :: xs, cx, g, rd =>
    if x.bad then .bad x.idx cx
    else
      match SCx.step x.t cx with
      | none => .panic
      | some cx' =>
        match chargeGas g (spent cx'.trace - spent cx.trace) with
        | none => .outOfGas
        | some g' =>
          let rd := if x.reads then (x.k, g) :: rd else rd
          if xs.isEmpty then .done (if x.t.lower.leaves then cx' else cx'.materializeLive) g' rd
          else gasSteps xs cx'.relieve g' rd

/-- The sections of a block with their static gas: the head charges it, then checks the bounds of the stack
(translate/mod.rs:569-604). -/
def gasSections : List (Nat × List (GInst F)) → SCx (Option (Paid F)) → Nat → List (Nat × Nat) → GChk F
  | [], cx, g, rd => .done cx g rd
  | (st, xs) :: rest, cx, g, rd =>
    match chargeGas g st with
    | none => .outOfGas
    | some g =>
      match headCheck (xs.map (·.t)) cx with
      | some f => .fail f cx
      | none =>
        match gasSteps xs (SCx.head (xs.map (·.t)) cx) g rd with
        | .done cx g rd => gasSections rest cx g rd
        | o => o

/-- The dynamic gas folded into the section of the EXP at `i` (sections.rs:228-236). -/
def Compiled.extra (C : Compiled) (expCost : Word → Nat) (i : Nat) : Option Nat :=
  (C.prog.insts[i]?).bind fun d => expExtra d.opcode (C.ai.constOperand i 1) (C.ai.constOutput i) expCost

/-- What the head of a section charges (translate/mod.rs:569-577): disabled and unknown instructions do not pay. -/
def Compiled.sectionGas (C : Compiled) (expCost : Word → Nat) (s : List (Nat × InstData)) : Nat :=
  match s with
  | [] => 0
  | (i, d) :: _ =>
    if d.flags.disabled || d.flags.unknown then 0
    else (constructSections C.prog.insts C.spec C.prog.hasDyn (C.extra expCost)).gasOut i

/-- An instruction of a block entered as the `k`-th instruction at `s`. -/
def Compiled.ginst (C : Compiled) (env : Env F) (dyn : Nat → Nat → List Word → Nat) (clob : Nat → Int → Word)
    (k s : Nat) (x : Nat × InstData) : GInst F :=
  { k := k + (x.1 - s), idx := x.1, reads := readsCounter C.spec x.2, bad := badImm C.code x
    t := toT C.code C.ai (actOf C.code C.prog (C.gasEnv env dyn) k s) (clobAt clob k s) x }

/-- The sections of a block. -/
def Compiled.gsecs (C : Compiled) (expCost : Word → Nat) (env : Env F) (dyn : Nat → Nat → List Word → Nat)
    (clob : Nat → Int → Word) (k : Nat) (b : CBlock) : List (Nat × List (GInst F)) :=
  (splitSections C.spec b.insts).map fun s => (C.sectionGas expCost s, s.map (C.ginst env dyn clob k b.start))

/-- Where the compiled program is, with its gas. -/
inductive GOut (F : Type)
  /-- at the start of block `i`, after `k` instructions -/
  | running (k i : Nat) (cx : SCx (Option (Paid F))) (g : Nat) (rd : List (Nat × Nat))
  /-- ended by instruction `i` -/
  | halted (i : Nat) (cx : SCx (Option (Paid F))) (g : Nat) (rd : List (Nat × Nat))
  | invalidJump
  | stackError (f : StackFail)
  | badImmediate (i : Nat)
  | outOfGas
  | panic

/-- An outcome without gas, with this gas. -/
def COut.withGas : COut (Paid F) → Nat → List (Nat × Nat) → GOut F
  | .running k i cx, g, rd => .running k i cx g rd
  | .halted i cx, g, rd => .halted i cx g rd
  | .invalidJump _, _, _ => .invalidJump
  | .stackError f _, _, _ => .stackError f
  | .badImmediate i _, _, _ => .badImmediate i
  | .panic, _, _ => .panic

/-- One block (translate/mod.rs:198-470), from its first instruction. -/
def Compiled.gasBlock (C : Compiled) (expCost : Word → Nat) (env : Env F) (dyn : Nat → Nat → List Word → Nat)
    (clob : Nat → Int → Word) (k i : Nat) (cx : SCx (Option (Paid F))) (g : Nat) (rd : List (Nat × Nat)) : GOut F :=
  match C.blocks.find? fun b => b.start == i with
  | none => .panic
  | some b =>
    match gasSections (C.gsecs expCost env dyn clob k b) cx g rd with
    | .done cx g rd => (C.leave k b cx).withGas g rd
    | .fail f _ => .stackError f
    | .bad i _ => .badImmediate i
    | .outOfGas => .outOfGas
    | .panic => .panic

/-- `n` blocks of the compiled program, started with `g` gas and an empty stack in a buffer holding `mem`
(translate/mod.rs:345-354). -/
def Compiled.runG (C : Compiled) (expCost : Word → Nat) (env : Env F) (dyn : Nat → Nat → List Word → Nat)
    (clob : Nat → Int → Word) (mem : Int → Word) (g : Nat) : Nat → GOut F
  | 0 => .running 0 0 { mem := mem } g []
  | n + 1 =>
    match C.runG expCost env dyn clob mem g n with
    | .running k i cx g rd => C.gasBlock expCost env dyn clob k i cx g rd
    | o => o

end Verif
