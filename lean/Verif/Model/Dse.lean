import Verif.Model.VStack
import Verif.Model.AbsInt
import Verif.Model.Lower
/-!
# Dead-store elimination, and the lowering of each opcode

Models `crates/revmc-codegen/src/bytecode/passes/dead_store_elim.rs`, and which of the ways of
`Model/VStack.lean` each opcode is lowered in (`translate_inst`,
`crates/revmc-codegen/src/compiler/translate/mod.rs`, and `try_peephole`, `translate/peephole.rs`).
-/

namespace Verif

/-! ## The pass -/

/-- `DecodedImm` (dead_store_elim.rs:20-26). -/
inductive DecodedImm
  | single (n : Nat)
  | pair (n m : Nat)
deriving DecidableEq, Repr

/-- The decoding of the immediate (dead_store_elim.rs:98-107). -/
def decodeImm (code : Code) (i : Nat) (o : UInt8) : Option DecodedImm :=
  if o == op.DUPN || o == op.SWAPN then
    (decodeSingle (UInt8.ofNat (code.imm i).toNat)).map fun n => .single n.toNat
  else if o == op.EXCHANGE then
    (decodePair (UInt8.ofNat (code.imm i).toNat)).map fun p => .pair p.1.toNat p.2.toNat
  else none

/-- `can_skip_when_dead` (dead_store_elim.rs:158-216). -/
def canSkipWhenDead (o : UInt8) : Bool :=
  [op.ADD, op.MUL, op.SUB, op.SIGNEXTEND, op.DIV, op.SDIV, op.MOD, op.SMOD, op.ADDMOD, op.MULMOD,
    op.LT, op.GT, op.SLT, op.SGT, op.EQ, op.ISZERO, op.AND, op.OR, op.XOR, op.NOT, op.BYTE, op.SHL,
    op.SHR, op.SAR, op.CLZ].contains o ||
  (op.DUP1 ≤ o && o ≤ op.DUP16) || o == op.DUPN || (op.SWAP1 ≤ o && o ≤ op.SWAP16) || o == op.SWAPN ||
  o == op.EXCHANGE || (op.PUSH0 ≤ o && o ≤ op.PUSH32) ||
  [op.PC, op.CODESIZE, op.ADDRESS, op.ORIGIN, op.CALLER, op.CALLVALUE, op.CALLDATALOAD,
    op.CALLDATASIZE, op.GASPRICE, op.RETURNDATASIZE, op.COINBASE, op.TIMESTAMP, op.NUMBER,
    op.DIFFICULTY, op.GASLIMIT, op.CHAINID, op.BASEFEE, op.BLOBBASEFEE, op.BLOBHASH,
    op.SLOTNUM].contains o

namespace Live

/-- `usize` subtraction: going below zero is a panic (the overflow check of debug builds; in release
builds the wrapped index is out of range). -/
def sub (a b : Nat) : Option Nat := if b ≤ a then some (a - b) else none

/-- `BitVec::set`; `none` is the out-of-range panic. -/
def set (L : List Bool) (p : Nat) (b : Bool) : Option (List Bool) :=
  if p < L.length then some (L.set p b) else none

/-- Exchanges the bits at two positions (dead_store_elim.rs:275-279, 339-343). -/
def exchange (L : List Bool) (p q : Nat) : Option (List Bool) :=
  (L[p]?).bind fun a => (L[q]?).bind fun b => (set L p b).bind fun L => set L q a

/-- `transfer_swap` (dead_store_elim.rs:338-344). -/
def transferSwap (L : List Bool) (h depth : Nat) : Option (List Bool) :=
  (sub h 1).bind fun tos => (sub tos depth).bind fun other => exchange L tos other

/-- The EXCHANGE arm of `transfer_liveness` (dead_store_elim.rs:268-281). -/
def transferExchange (L : List Bool) (h n m : Nat) : Option (List Bool) :=
  (sub h 1).bind fun tos => (sub tos n).bind fun a => (sub tos m).bind fun b => exchange L a b

/-- `transfer_dup` (dead_store_elim.rs:400-408). -/
def transferDup (L : List Bool) (h depth : Nat) : Option (List Bool) :=
  (sub h depth).bind fun src => (L[h]?).bind fun new => (set L h false).bind fun L =>
    if new then set L src true else some L

/-- `for k in 0..out { live.set(base + k, false) }` (dead_store_elim.rs:309-311). -/
def killFrom (base : Nat) : Nat → List Bool → Option (List Bool)
  | 0, L => some L
  | n + 1, L => (set L base false).bind (killFrom (base + 1) n)

/-- The marking of inputs (dead_store_elim.rs:322-328) from the `k`-th on; `snap` is in stack order,
deepest first. -/
def markFrom (snap : List AbsValue) (base : Nat) : Nat → Nat → List Bool → Option (List Bool)
  | 0, _, L => some L
  | n + 1, k, L =>
    (if ((snap[k]?).bind AbsValue.asConst).isSome then some L else set L (base + k) true).bind
      (markFrom snap base n (k + 1))

/-- `generic_transfer` (dead_store_elim.rs:299-329). -/
def genericTransfer (L : List Bool) (h inp out : Nat) (snap : List AbsValue) (output : Option AbsValue) :
    Option (List Bool) :=
  (sub h inp).bind fun base => (killFrom base out L).bind fun L =>
    if 0 < out ∧ (output.bind AbsValue.asConst).isSome then some L
    else markFrom snap base inp 0 L

/-- `transfer_liveness` (dead_store_elim.rs:233-290). -/
def transfer (L : List Bool) (o : UInt8) (h inp out : Nat) (imm : Option DecodedImm)
    (snap : List AbsValue) (output : Option AbsValue) : Option (List Bool) :=
  let n := o.toNat
  if 0x90 ≤ n ∧ n ≤ 0x9f then transferSwap L h (n - 0x90 + 1)
  else if n = 0xe7 then
    match imm with
    | some (.single d) => if d < h then transferSwap L h d else some L
    | _ => some L
  else if 0x80 ≤ n ∧ n ≤ 0x8f then transferDup L h (n - 0x80 + 1)
  else if n = 0xe6 then
    match imm with
    | some (.single d) => if 1 ≤ d ∧ d ≤ h then transferDup L h d else some L
    | _ => some L
  else if n = 0xe8 then
    match imm with
    | some (.pair a b) => if b < h then transferExchange L h a b else some L
    | _ => some L
  else if n = 0x50 then (sub h 1).bind fun p => set L p false
  else genericTransfer L h inp out snap output

/-- `swap_all_dead` (dead_store_elim.rs:394-397). -/
def swapDead (L : List Bool) (h depth : Nat) : Option Bool :=
  (sub h 1).bind fun tos => (L[tos]?).bind fun a =>
    if a then some false
    else (sub tos depth).bind fun other => (L[other]?).map fun b => !b

/-- The generic arm of `all_outputs_dead` (dead_store_elim.rs:379-388). -/
def rangeDead (L : List Bool) (base out : Nat) : Bool :=
  (List.range out).all fun k => (L[base + k]?) == some false

/-- `all_outputs_dead` (dead_store_elim.rs:351-391). -/
def allDead (L : List Bool) (o : UInt8) (h inp out : Nat) (imm : Option DecodedImm) : Option Bool :=
  let n := o.toNat
  if 0x90 ≤ n ∧ n ≤ 0x9f then swapDead L h (n - 0x90 + 1)
  else if 0x80 ≤ n ∧ n ≤ 0x8f then (L[h]?).map fun b => !b
  else if n = 0xe7 then
    match imm with
    | some (.single d) => if d < h then swapDead L h d else some false
    | _ => some false
  else if n = 0xe6 then
    match imm with
    | some (.single _) => (L[h]?).map fun b => !b
    | _ => some false
  else if n = 0xe8 then
    match imm with
    | some (.pair a b) =>
      if b < h then
        (sub h 1).bind fun tos => (sub tos a).bind fun p => (L[p]?).bind fun x =>
          if x then some false else (sub tos b).bind fun q => (L[q]?).map fun y => !y
      else some false
    | _ => some false
  else if 0 < out then (sub h inp).map fun base => rangeDead L base out
  else some false

end Live

/-- `i32 as usize`: negative values wrap. -/
def asUsize (h : Int) : Nat := (h % 2 ^ 64).toNat

/-- One iteration of the backward walk (dead_store_elim.rs:84-138), at height `h` before the
instruction: whether it is marked, and the liveness before it. `none` is a panic. -/
def dseInst (code : Code) (st : AIState) (i : Nat) (d : InstData) (h : Int) (L : List Bool) :
    Option (Bool × List Bool) :=
  if d.flags.noop || d.flags.disabled || d.flags.unknown then some (false, L)
  else
    let inp := d.stackIo.1
    let out := d.stackIo.2
    let imm := decodeImm code i d.opcode
    (if canSkipWhenDead d.opcode && !d.isBranching && !d.isDiverging then
        Live.allDead L d.opcode (asUsize h) inp out imm
      else some false).bind fun dead =>
    if dead then some (true, L)
    else
      (Live.transfer L d.opcode (asUsize h) inp out imm (st.inputs i) (st.outputs i)).bind fun L =>
        if d.maySuspend then
          let after := asUsize (h + ((out : Int) - inp))
          if after ≤ L.length then some (false, List.replicate after true ++ L.drop after) else none
        else some (false, L)

/-- The backward walk over the instructions from height `h` on, with the liveness at the block's end. -/
def dseWalk (code : Code) (st : AIState) : List (Nat × InstData) → Int → List Bool →
    Option (List (Nat × InstData) × List Bool)
  | [], _, L => some ([], L)
  | (i, d) :: rest, h, L =>
    (dseWalk code st rest (h + ((d.stackIo.2 : Int) - d.stackIo.1)) L).bind fun r =>
      (dseInst code st i d h r.2).map fun q =>
        ((i, if q.1 then { d with flags := { d.flags with noop := true } } else d) :: r.1, q.2)

/-- The heights of a block (dead_store_elim.rs:46-60). -/
def blockAcc (l : List (Nat × InstData)) : StackAcc :=
  l.foldl (fun a p => a.process p.2.stackIo.1 p.2.stackIo.2) {}

/-- `term_diverges` (dead_store_elim.rs:69-71). -/
def termDiverges (inspect : Bool) (l : List (Nat × InstData)) : Bool :=
  !inspect && !(l.any fun p => p.2.maySuspend) && (l.getLast?.any fun p => p.2.isDiverging)

/-- `dead_store_elim` on one block (dead_store_elim.rs:43-139); `none` is a panic. -/
def dseBlock (inspect : Bool) (code : Code) (st : AIState) (l : List (Nat × InstData)) :
    Option (List (Nat × InstData)) :=
  let a := blockAcc l
  let s := a.section
  let exit := (max ((s.inputs : Int) + a.diff) 0).toNat
  let maxH := (max ((s.inputs : Int) + s.maxGrowth) 0).toNat
  let live := (List.replicate exit (!termDiverges inspect l)).take maxH ++ List.replicate (maxH - exit) false
  if live.isEmpty then some l else (dseWalk code st l s.inputs live).map (·.1)

/-! ## How each opcode is lowered -/

/-- `const_memory_operands` (peephole.rs:340-353). -/
def constMemoryOperands (off len : Option Word) : Option (Word × Word) :=
  len.bind fun len =>
    if len.toNat < 2 ^ 64 then
      match off with
      | some o => if o.toNat < 2 ^ 64 then some (o, len) else if len = 0 then some (0, len) else none
      | none => if len = 0 then some (0, len) else none
    else none

/-- Opcodes whose builtin gets `sp_at_top` (translate/mod.rs:836-939). -/
def topBuiltins : List UInt8 :=
  [op.ORIGIN, op.COINBASE, op.TIMESTAMP, op.NUMBER, op.DIFFICULTY, op.GASLIMIT, op.CHAINID,
    op.SELFBALANCE, op.BASEFEE, op.BLOBBASEFEE, op.SLOTNUM]

/-- Opcodes whose builtin gets `sp_after_inputs` (translate/mod.rs:721-1160). RETURN and REVERT with
constant operands call another builtin with the same constants (peephole.rs:319-338). -/
def spBuiltins : List UInt8 :=
  [op.DIV, op.SDIV, op.MOD, op.SMOD, op.ADDMOD, op.MULMOD, op.EXP, op.KECCAK256, op.BALANCE,
    op.CALLDATALOAD, op.CALLDATACOPY, op.CODECOPY, op.GASPRICE, op.EXTCODESIZE, op.EXTCODECOPY,
    op.RETURNDATACOPY, op.EXTCODEHASH, op.BLOCKHASH, op.BLOBHASH, op.SLOAD, op.SSTORE, op.TLOAD,
    op.TSTORE, op.MCOPY, op.LOG0, op.LOG1, op.LOG2, op.LOG3, op.LOG4, op.RETURN, op.REVERT,
    op.SELFDESTRUCT]

/-- Lowering of the opcodes that are neither jumps, suspensions nor stack shuffles: `try_peephole`
(peephole.rs:22-41), then the opcode match (translate/mod.rs:715-1166). The arithmetic peepholes are
probed with unknown operands: a defined result is a `fold_const`. -/
def lowerPlain (o : UInt8) (inp : Nat) (ci : Nat → Option Word) : Lower :=
  match tryPeephole o ((List.range inp).map ci) (List.replicate inp none) with
  | some { value := some c, payExpGas := false } => .fold c
  | some { value := some c, payExpGas := true } => .expFold c
  | some { value := none, payExpGas := false } => .inline
  | some { value := none, payExpGas := true } => .expInline
  | none =>
    if (o == op.CALLDATALOAD || o == op.SLOAD) && (ci 0).any (fun w => decide (w.toNat < 2 ^ 64)) then
      .loadConst
    else
      match (if o == op.KECCAK256 then constMemoryOperands (ci 0) (ci 1) else none) with
      | some (off, len) => .keccakConst off len
      | none =>
        if topBuiltins.contains o then .builtinTop
        else if spBuiltins.contains o then .builtin
        else if o == op.JUMPDEST || o == op.STOP || o == op.INVALID then .nop
        else .inline

/-- How an instruction is lowered (translate/mod.rs:563-1172). Instructions that always fail
(disabled, unknown, undecodable immediates) touch no operand. -/
def lowerOf (code : Code) (st : AIState) (i : Nat) (d : InstData) : Lower :=
  let n := d.opcode.toNat
  if d.flags.disabled || d.flags.unknown then .nop
  else if d.isJump then
    .branch (!d.flags.invalidJump && (d.flags.multiJump || !d.flags.staticJump)) (d.opcode == op.JUMPI)
      (d.opcode == op.JUMPI && !d.hasConstJumpiCondition)
  else if d.maySuspend then .suspend
  else if n = 0x50 then .popIgnore
  else if 0x80 ≤ n ∧ n ≤ 0x8f then .dup (n - 0x80 + 1)
  else if 0x90 ≤ n ∧ n ≤ 0x9f then .exchange 0 (n - 0x90 + 1)
  else if n = 0xe6 then
    match decodeImm code i d.opcode with
    | some (.single k) => .dup k
    | _ => .nop
  else if n = 0xe7 then
    match decodeImm code i d.opcode with
    | some (.single k) => .exchange 0 k
    | _ => .nop
  else if n = 0xe8 then
    match decodeImm code i d.opcode with
    | some (.pair a b) => .exchange a (b - a)
    | _ => .nop
  else lowerPlain d.opcode d.stackIo.1 (st.constOperand i)

/-- The instruction as the code generator sees it, in an execution in which instruction `i` does
`act i` to its operands. -/
def toT {E : Type} (code : Code) (st : AIState) (act : Nat → List Word → List Word × E)
    (clob : Nat → Int → Word) (p : Nat × InstData) : TInst E :=
  { inp := p.2.stackIo.1
    out := p.2.stackIo.2
    lower := lowerOf code st p.1 p.2
    constIn := st.constOperand p.1
    constOut := st.constOutput p.1
    noop := p.2.flags.noop
    act := act p.1
    clob := clob p.1 }

/-- The stack sections of a block: cut after every instruction that ends a section
(sections.rs:239-245). -/
def splitSections (spec : SpecId) : List (Nat × InstData) → List (List (Nat × InstData))
  | [] => []
  | p :: rest =>
    if p.2.endsSection spec then [p] :: splitSections spec rest
    else match splitSections spec rest with
      | [] => [[p]]
      | s :: ss => (p :: s) :: ss

end Verif
