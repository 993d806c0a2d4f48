import Verif.Model.Lower
/-!
# Gas and stack sections

Models `crates/revmc-codegen/src/bytecode/passes/sections.rs`, `construct_sections`
(`bytecode/mod.rs`:579-587), and the head checks `check_stack_bounds` / `gas_cost` of
`compiler/translate/mod.rs`.
-/

namespace Verif

/-- `StackSection` (sections.rs:39-44). -/
structure StackSection where
  inputs : Nat := 0
  maxGrowth : Int := 0
deriving DecidableEq, Repr

/-- `StackSectionAnalysis` without `start_inst` (sections.rs:141-146). The three `i32` counters are
unbounded integers here: they can only wrap in a section of more than 2^31/255 instructions. -/
structure StackAcc where
  inputs : Int := 0
  diff : Int := 0
  maxGrowth : Int := 0
deriving DecidableEq, Repr

/-- `StackSectionAnalysis::process` (sections.rs:162-166). -/
def StackAcc.process (a : StackAcc) (inp out : Nat) : StackAcc :=
  let diff := a.diff + ((out : Int) - inp)
  { inputs := max a.inputs ((inp : Int) - a.diff)
    diff := diff
    maxGrowth := max a.maxGrowth diff }

/-- `StackSectionAnalysis::section` (sections.rs:199-204): conversions saturate. -/
def StackAcc.section (a : StackAcc) : StackSection :=
  { inputs := if 0 ≤ a.inputs ∧ a.inputs ≤ 65535 then a.inputs.toNat else 65535
    maxGrowth := if -32768 ≤ a.maxGrowth ∧ a.maxGrowth ≤ 32767 then a.maxGrowth else 32767 }

/-- `GasSectionAnalysis::section` (sections.rs:135-137). -/
def gasSection (gas : Nat) : Nat := if gas ≤ 2 ^ 32 - 1 then gas else 2 ^ 32 - 1

/-- The extra gas folded into a section for EXP (sections.rs:231-236); `none` when nothing is folded. -/
def expExtra (opcode : UInt8) (constExponent constOut : Option Word) (expCost : Word → Nat) :
    Option Nat :=
  if opcode == op.EXP then
    match constExponent with
    | some e => if constOut.isSome || decide (e.toNat ≤ 2) then some (expCost e) else none
    | none => none
  else none

/-- State of `SectionsAnalysis` (sections.rs:209-212) and the section fields it writes. Both
analyses are always reset at the same instructions, so they share `start`. Simplification: the
per-instruction fields are maps from the instruction index; `none` is "not a section head". -/
structure SecState where
  start : Nat := 0
  gas : Nat := 0
  stk : StackAcc := {}
  gasOut : Nat → Nat := fun _ => 0
  stkOut : Nat → Option StackSection := fun _ => none

/-- `bytecode.insts[start..].find(|i| !i.is_dead_code())` (sections.rs:117-118, 188-189). -/
def firstLive (insts : List InstData) (start : Nat) : Option Nat :=
  ((insts.drop start).findIdx? fun d => !d.flags.deadCode).map (· + start)

/-- `save_to` of both analyses (sections.rs:103-121, 174-192); an empty gas section is not written. -/
def SecState.save (insts : List InstData) (s : SecState) : SecState :=
  match firstLive insts s.start with
  | none => s
  | some h =>
    { s with
      gasOut := if gasSection s.gas = 0 then s.gasOut
        else fun j => if j = h then gasSection s.gas else s.gasOut j
      stkOut := fun j => if j = h then some s.stk.section else s.stkOut j }

/-- `save_to_reset` of both analyses (sections.rs:97-101, 168-171). -/
def SecState.saveReset (insts : List InstData) (s : SecState) (next : Nat) : SecState :=
  { s.save insts with start := next, gas := 0, stk := {} }

/-- Whether an instruction ends its sections (sections.rs:240). -/
def InstData.endsSection (spec : SpecId) (d : InstData) : Bool :=
  d.maySuspend || d.isBranching || d.requiresGasleft spec

/-- `SectionsAnalysis::process` (sections.rs:216-244). `extra i` is the folded EXP gas. -/
def SecState.process (insts : List InstData) (spec : SpecId) (dyn : Bool) (extra : Nat → Option Nat)
    (s : SecState) (i : Nat) (d : InstData) : SecState :=
  let s := if d.isReachableJumpdest dyn then s.saveReset insts i else s
  let s := { s with
    stk := s.stk.process d.stackIo.1 d.stackIo.2
    gas := s.gas + d.baseGas + (extra i).getD 0 }
  if d.endsSection spec then s.saveReset insts (i + 1) else s

/-- The loop of `construct_sections` (bytecode/mod.rs:580-585) from instruction `i` on. -/
def sectionsLoop (insts : List InstData) (spec : SpecId) (dyn : Bool) (extra : Nat → Option Nat) :
    List InstData → Nat → SecState → SecState
  | [], _, s => s
  | d :: rest, i, s =>
    sectionsLoop insts spec dyn extra rest (i + 1)
      (if d.flags.deadCode then s else s.process insts spec dyn extra i d)

/-- `construct_sections` (bytecode/mod.rs:579-587) with `finish` (sections.rs:247-250). -/
def constructSections (insts : List InstData) (spec : SpecId) (dyn : Bool)
    (extra : Nat → Option Nat) : SecState :=
  (sectionsLoop insts spec dyn extra insts 0 {}).save insts

/-- `STACK_CAP` (translate/mod.rs, 1024). -/
def STACK_CAP : Nat := 1024

/-- `check_stack_bounds` (translate/mod.rs:1765-1801) at run-time stack length `len`: which failure
is reported, if any. -/
inductive StackFail | underflow | overflow
deriving DecidableEq, Repr

/-- `check_stack_bounds` (translate/mod.rs:1765-1801). -/
def checkStackBounds (sec : StackSection) (len : Nat) : Option StackFail :=
  let underflow := decide (len < sec.inputs)
  let overflow := if sec.maxGrowth > STACK_CAP then true
    else decide ((STACK_CAP : Int) - sec.maxGrowth < len)
  let mayUnderflow := decide (sec.inputs > 0)
  let mayOverflow := decide (sec.maxGrowth > 0)
  if mayUnderflow && mayOverflow then
    if underflow || overflow then some (if underflow then .underflow else .overflow) else none
  else if mayUnderflow then (if underflow then some .underflow else none)
  else if mayOverflow then (if overflow then some .overflow else none)
  else none

/-- The gas deduction `gas_cost` (translate/mod.rs:1669-1684) on a `u64` counter: `usub_overflow`,
then fail on overflow. -/
def chargeGas (remaining cost : Nat) : Option Nat :=
  if remaining < cost then none else some (remaining - cost)

/-- Whether run-time gas is charged for an EXP by the emitted code: not when the output is constant
(translate/mod.rs:633-648); by `ExpGas` inside a peephole (peephole.rs:250-253); by the EXP builtin
otherwise (translate/mod.rs:745-748). -/
def expRuntimeCharge (constBase constExponent constOut : Option Word) (a b : IRVal) : Bool :=
  if constOut.isSome then false
  else match tryPeephole op.EXP [constBase, constExponent] [a, b] with
    | some p => p.payExpGas
    | none => true

end Verif
