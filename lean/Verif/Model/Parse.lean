import Verif.Model.Opcode

/-!
# Bytecode parsing

Models `U256Imm` / `Interner`, `InstData`, the opcode iterators and `Bytecode::new_mono`
(`crates/revmc-codegen/src/bytecode/{mod,opcode,interner}.rs`).
-/

namespace Verif

/-- `Interner` (interner.rs:8-31): an insertion-ordered set with stable indices (`IndexSet`).
Simplification: a list without duplicates; the hash table is not modelled. -/
abbrev Interner := List Word

namespace Interner
/-- `Interner::intern` (interner.rs:33-36): `insert_full`, i.e. the index of the existing equal
element, or append. -/
def intern (it : Interner) (v : Word) : Nat × Interner :=
  match it.idxOf? v with
  | some i => (i, it)
  | none => (it.length, it ++ [v])

/-- `Interner::get` (interner.rs:42-44). Out of range panics in Rust: `none` here. -/
def get (it : Interner) (i : Nat) : Option Word := it[i]?
end Interner

/-- `U256Imm` (mod.rs:67-71): the raw 32-bit handle, as a natural number. -/
structure U256Imm where
  raw : Nat
deriving DecidableEq, Repr

namespace U256Imm
/-- `INLINE_TAG` (mod.rs:75). -/
def TAG : Nat := 2 ^ 31

/-- `U256Imm::new` (mod.rs:91-104). `x & TAG == 0` for a `u32` `x` is `x < 2^31`; `TAG | x` is then
`TAG + x`. The `debug_assert` on more than 2^31 entries is a hypothesis of the theorems. -/
def new (v : Word) (it : Interner) : U256Imm × Interner :=
  if v.toNat < TAG then (⟨TAG + v.toNat⟩, it)
  else let (i, it') := it.intern v; (⟨i⟩, it')

/-- `U256Imm::get` (mod.rs:108-114). -/
def get (h : U256Imm) (it : Interner) : Option Word :=
  if TAG ≤ h.raw then some (BitVec.ofNat 256 (h.raw - TAG)) else it.get h.raw

/-- `U256Imm::get_inline` (mod.rs:118-120). -/
def getInline (h : U256Imm) : Option Nat :=
  if TAG ≤ h.raw then some (h.raw - TAG) else none
end U256Imm

/-- `InstFlags` (mod.rs:1181-1210); the `u16` bit set as a record of booleans. -/
structure InstFlags where
  staticJump : Bool := false
  invalidJump : Bool := false
  multiJump : Bool := false
  constJumpCond : Bool := false
  disabled : Bool := false
  unknown : Bool := false
  noop : Bool := false
  stackSectionHead : Bool := false
  deadCode : Bool := false
deriving DecidableEq, Repr

/-- `InstData` (mod.rs:950-977). Simplifications: the two section fields are modelled with the
section analysis; the `JUMPDEST_REACHABLE` bit that shares `data` (mod.rs:1067) is the separate
field `reachable`. -/
structure InstData where
  opcode : UInt8
  flags : InstFlags := {}
  baseGas : Nat := 0
  stackIo : Nat × Nat := (0, 0)
  data : Nat := 0
  reachable : Bool := false
deriving DecidableEq, Repr

namespace InstData
/-- `InstData::new` (mod.rs:997-999). -/
def mk' (o : UInt8) : InstData := { opcode := o, stackIo := tableStackIo o }

/-- `is_jump` (mod.rs:1021-1023). -/
def isJump (d : InstData) : Bool := d.opcode == op.JUMP || d.opcode == op.JUMPI

/-- `is_static_jump` (mod.rs:1028-1030). -/
def isStaticJump (d : InstData) : Bool := d.isJump && d.flags.staticJump

/-- `has_const_jumpi_condition` (mod.rs:1034-1036). -/
def hasConstJumpiCondition (d : InstData) : Bool := d.opcode == op.JUMPI && d.flags.constJumpCond

/-- `is_jumpdest` (mod.rs:1040-1042). -/
def isJumpdest (d : InstData) : Bool := d.opcode == op.JUMPDEST

/-- `is_reachable_jumpdest` (mod.rs:1046-1048). -/
def isReachableJumpdest (d : InstData) (hasDynamicJumps : Bool) : Bool :=
  d.isJumpdest && (hasDynamicJumps || d.reachable)

/-- `is_diverging` (mod.rs:1150-1164); the `cfg(test)` pseudo-opcode is not modelled. -/
def isDiverging (d : InstData) : Bool :=
  (d.opcode == op.JUMP && d.flags.invalidJump) || d.flags.disabled || d.flags.unknown ||
    [op.STOP, op.RETURN, op.REVERT, op.INVALID, op.SELFDESTRUCT].contains d.opcode

/-- `can_fall_through` (mod.rs:1138-1140). -/
def canFallThrough (d : InstData) : Bool :=
  !d.isDiverging && d.opcode != op.JUMP && !d.hasConstJumpiCondition

/-- `is_branching` (mod.rs:1144-1146). -/
def isBranching (d : InstData) : Bool := d.isJump || d.isDiverging

/-- `may_suspend` (mod.rs:1168-1178). -/
def maySuspend (d : InstData) : Bool :=
  [op.CALL, op.CALLCODE, op.DELEGATECALL, op.STATICCALL, op.CREATE, op.CREATE2].contains d.opcode

/-- `requires_gasleft` (mod.rs:1130-1134). -/
def requiresGasleft (d : InstData) (spec : SpecId) : Bool :=
  d.opcode == op.GAS || (d.opcode == op.SSTORE && decide (SpecId.ISTANBUL ≤ spec))

/-- `static_jump_target` (mod.rs:1107-1110). -/
def staticJumpTarget (d : InstData) : Nat := d.data
end InstData

/-- `U256::from_be_slice`: big-endian value of a byte slice of length at most 32. -/
def fromBeSlice (bs : List UInt8) : Word :=
  BitVec.ofNat 256 (bs.foldl (fun acc b => acc * 256 + b.toNat) 0)

/-- Whether the opcode is neither unknown nor disabled (the test at opcode.rs:132, mod.rs:259). -/
def opActive (info : OpcodeInfo) : Bool := !(info.isUnknown || info.isDisabled)

/-- One `OpcodesIter::next` after the opcode byte `o` was taken and `rest` remains
(opcode.rs:129-147): the immediate (present only if complete) and the remaining bytes. -/
def iterNext (infos : UInt8 → OpcodeInfo) (o : UInt8) (rest : List UInt8) :
    Option (List UInt8) × List UInt8 :=
  if opActive (infos o) then
    let len := minImmLen o
    if len > 0 then
      (if len ≤ rest.length then some (rest.take len) else none, rest.drop len)
    else (none, rest)
  else (none, rest)

/-- `matches!(opcode, op::DUPN | op::SWAPN | op::EXCHANGE)` (mod.rs:309). -/
def isEip8024 (o : UInt8) : Bool := o == op.DUPN || o == op.SWAPN || o == op.EXCHANGE

/-- `matches!(opcode, op::PUSH0..=op::PUSH32)` (mod.rs:266). -/
def isPush (o : UInt8) : Bool := op.PUSH0 ≤ o && o ≤ op.PUSH32

/-- The immediate value computed in `new_mono` (mod.rs:267-281): `tail` is `code.get(pc+1..)`. -/
def immValue (o : UInt8) (tail : List UInt8) : Word :=
  let immLen := minImmLen o
  let avail := tail.take immLen
  if avail.length = immLen then fromBeSlice avail
  else if avail ≠ [] then fromBeSlice (avail ++ List.replicate (immLen - avail.length) 0)
  else 0

/-- The `data` match in `new_mono` (mod.rs:265-290), threading the interner. -/
def instDataField (o : UInt8) (pc : Nat) (tail : List UInt8) (it : Interner) : Nat × Interner :=
  if isPush o || isEip8024 o then
    let (h, it') := U256Imm.new (immValue o tail) it
    (h.raw, it')
  else if o == op.JUMPDEST || o == op.PC then (pc, it)
  else (0, it)

/-- The instruction pushed by one iteration of the `new_mono` loop (mod.rs:251-303). -/
def mkInst (infos : UInt8 → OpcodeInfo) (o : UInt8) (immediate : Option (List UInt8)) (data : Nat) :
    InstData :=
  let info := infos o
  let active := opActive info
  { opcode := o
    flags := { unknown := info.isUnknown, disabled := info.isDisabled }
    baseGas := if active then info.baseGas.toNat else 0
    stackIo := if active then computeStackIo o immediate else (0, 0)
    data := data }

/-- The rewind condition (mod.rs:309-313): an active DUPN/SWAPN/EXCHANGE whose immediate is
`Some([0x5b])`. -/
def loopRewind (infos : UInt8 → OpcodeInfo) (o : UInt8) (rest : List UInt8) : Bool :=
  isEip8024 o && opActive (infos o) && (iterNext infos o rest).1 == some [op.JUMPDEST]

/-- The bytes left for the next iteration; the rewind by one byte (mod.rs:315, opcode.rs:114-122)
restores the bytes right after the opcode. -/
def loopNext (infos : UInt8 → OpcodeInfo) (o : UInt8) (rest : List UInt8) : List UInt8 :=
  if loopRewind infos o rest then rest else (iterNext infos o rest).2

/-- How much the iterator's `pc` grows in one iteration (opcode.rs:36-40, minus the rewind at
opcode.rs:26). A truncated immediate adds nothing, as in the Rust code. -/
def loopAdvance (infos : UInt8 → OpcodeInfo) (o : UInt8) (rest : List UInt8) : Nat :=
  let adv := 1 + (match (iterNext infos o rest).1 with | some imm => imm.length | none => 0)
  if loopRewind infos o rest then adv - 1 else adv

theorem loopNext_length (infos : UInt8 → OpcodeInfo) (o : UInt8) (rest : List UInt8) :
    (loopNext infos o rest).length ≤ rest.length := by
  unfold loopNext iterNext
  split
  · simp
  · split
    · dsimp only
      split <;> simp
    · simp

/-- The main loop of `Bytecode::new_mono` (mod.rs:242-317) on the not yet consumed bytes, at
program counter `pc`. Returns the instructions with their program counters, and the interner.
Simplifications: program counters are unbounded naturals (Rust stores them as `u32`); the
`JUMPDEST` bitmap and the two pc maps are derived from the returned list below. -/
def parseLoop (infos : UInt8 → OpcodeInfo) (bytes : List UInt8) (pc : Nat) (it : Interner) :
    List (Nat × InstData) × Interner :=
  match bytes with
  | [] => ([], it)
  | o :: rest =>
    let immediate := (iterNext infos o rest).1
    let di := instDataField o pc rest it
    let inst := mkInst infos o immediate di.1
    let r := parseLoop infos (loopNext infos o rest) (pc + loopAdvance infos o rest) di.2
    ((pc, inst) :: r.1, r.2)
termination_by bytes.length
decreasing_by
  have := loopNext_length infos o rest
  simp only [List.length_cons]; omega

/-- The parsed `Bytecode` (mod.rs:161-216), restricted to the fields set by parsing. `insts` pairs
each instruction with `inst_to_pc`. -/
structure Parsed where
  code : List UInt8
  spec : SpecId
  insts : List (Nat × InstData)
  interner : Interner

/-- `Bytecode::new_mono` (mod.rs:233-347) including the STOP padding (mod.rs:320-324). -/
def parse (gasTable : UInt8 → BitVec 16) (spec : SpecId) (code : List UInt8) : Parsed :=
  let (l, it) := parseLoop (makeMap gasTable spec) code 0 []
  let pad := match l.getLast? with
    | none => true
    | some (_, d) => d.canFallThrough
  { code, spec
    insts := if pad then l ++ [(code.length, InstData.mk' op.STOP)] else l
    interner := it }

namespace Parsed
/-- `is_valid_jump` (mod.rs:635-637): bit `pc` of the `jumpdests` bitmap, which new_mono sets exactly
when it yields an opcode 0x5b at `pc` (mod.rs:247-249). Padding happens at `pc = code.len()` and is
a STOP, so it never sets a bit. -/
def isValidJump (b : Parsed) (pc : Nat) : Bool :=
  b.insts.any fun x => x.1 == pc && x.2.opcode == op.JUMPDEST

/-- `pc_to_inst` (mod.rs:665-670): filled for each iterated instruction (mod.rs:244), not for the
padding. A missing key panics in Rust: `none` here. -/
def pcToInst (b : Parsed) (pc : Nat) : Option Nat :=
  if pc < b.code.length then b.insts.findIdx? fun x => x.1 == pc else none

/-- `pc(inst)` (mod.rs:617-619). -/
def instPc (b : Parsed) (i : Nat) : Option Nat := b.insts[i]?.map (·.1)

/-- The constant of a PUSH (`data.imm().get(..)`, mod.rs:1052-1058 and 627-630). -/
def pushValue (b : Parsed) (i : Nat) : Option Word :=
  match b.insts[i]? with
  | some (_, d) => U256Imm.get ⟨d.data⟩ b.interner
  | none => none
end Parsed

end Verif
