/-!
# Opcodes, hard forks and the opcode-info map

Models `crates/revmc-codegen/src/bytecode/info.rs` and the table part of
`crates/revmc-codegen/src/bytecode/opcode.rs`.

Bytes are `UInt8`, 256-bit words are `BitVec 256`.
-/

namespace Verif

/-- A 256-bit EVM word (`U256` in the Rust code). -/
abbrev Word := BitVec 256

/-! `revm_bytecode::opcode` constants used by revmc (external crate; the byte values are those of
the EVM). Used throughout `crates/revmc-codegen/src/bytecode/*.rs` as `op::NAME`. -/
namespace op
abbrev STOP : UInt8 := 0x00
abbrev ADD : UInt8 := 0x01
abbrev MUL : UInt8 := 0x02
abbrev SUB : UInt8 := 0x03
abbrev DIV : UInt8 := 0x04
abbrev SDIV : UInt8 := 0x05
abbrev MOD : UInt8 := 0x06
abbrev SMOD : UInt8 := 0x07
abbrev ADDMOD : UInt8 := 0x08
abbrev MULMOD : UInt8 := 0x09
abbrev EXP : UInt8 := 0x0a
abbrev SIGNEXTEND : UInt8 := 0x0b
abbrev LT : UInt8 := 0x10
abbrev GT : UInt8 := 0x11
abbrev SLT : UInt8 := 0x12
abbrev SGT : UInt8 := 0x13
abbrev EQ : UInt8 := 0x14
abbrev ISZERO : UInt8 := 0x15
abbrev AND : UInt8 := 0x16
abbrev OR : UInt8 := 0x17
abbrev XOR : UInt8 := 0x18
abbrev NOT : UInt8 := 0x19
abbrev BYTE : UInt8 := 0x1a
abbrev SHL : UInt8 := 0x1b
abbrev SHR : UInt8 := 0x1c
abbrev SAR : UInt8 := 0x1d
abbrev CLZ : UInt8 := 0x1e
abbrev KECCAK256 : UInt8 := 0x20
abbrev ADDRESS : UInt8 := 0x30
abbrev BALANCE : UInt8 := 0x31
abbrev ORIGIN : UInt8 := 0x32
abbrev CALLER : UInt8 := 0x33
abbrev CALLVALUE : UInt8 := 0x34
abbrev CALLDATALOAD : UInt8 := 0x35
abbrev CALLDATASIZE : UInt8 := 0x36
abbrev CALLDATACOPY : UInt8 := 0x37
abbrev CODESIZE : UInt8 := 0x38
abbrev CODECOPY : UInt8 := 0x39
abbrev GASPRICE : UInt8 := 0x3a
abbrev EXTCODESIZE : UInt8 := 0x3b
abbrev EXTCODECOPY : UInt8 := 0x3c
abbrev RETURNDATASIZE : UInt8 := 0x3d
abbrev RETURNDATACOPY : UInt8 := 0x3e
abbrev EXTCODEHASH : UInt8 := 0x3f
abbrev BLOCKHASH : UInt8 := 0x40
abbrev COINBASE : UInt8 := 0x41
abbrev TIMESTAMP : UInt8 := 0x42
abbrev NUMBER : UInt8 := 0x43
abbrev DIFFICULTY : UInt8 := 0x44
abbrev GASLIMIT : UInt8 := 0x45
abbrev CHAINID : UInt8 := 0x46
abbrev SELFBALANCE : UInt8 := 0x47
abbrev BASEFEE : UInt8 := 0x48
abbrev BLOBHASH : UInt8 := 0x49
abbrev BLOBBASEFEE : UInt8 := 0x4a
abbrev SLOTNUM : UInt8 := 0x4b
abbrev POP : UInt8 := 0x50
abbrev MLOAD : UInt8 := 0x51
abbrev MSTORE : UInt8 := 0x52
abbrev MSTORE8 : UInt8 := 0x53
abbrev SLOAD : UInt8 := 0x54
abbrev SSTORE : UInt8 := 0x55
abbrev JUMP : UInt8 := 0x56
abbrev JUMPI : UInt8 := 0x57
abbrev PC : UInt8 := 0x58
abbrev MSIZE : UInt8 := 0x59
abbrev GAS : UInt8 := 0x5a
abbrev JUMPDEST : UInt8 := 0x5b
abbrev TLOAD : UInt8 := 0x5c
abbrev TSTORE : UInt8 := 0x5d
abbrev MCOPY : UInt8 := 0x5e
abbrev PUSH0 : UInt8 := 0x5f
abbrev PUSH1 : UInt8 := 0x60
abbrev PUSH2 : UInt8 := 0x61
abbrev PUSH3 : UInt8 := 0x62
abbrev PUSH4 : UInt8 := 0x63
abbrev PUSH32 : UInt8 := 0x7f
abbrev DUP1 : UInt8 := 0x80
abbrev DUP16 : UInt8 := 0x8f
abbrev SWAP1 : UInt8 := 0x90
abbrev SWAP16 : UInt8 := 0x9f
abbrev LOG0 : UInt8 := 0xa0
abbrev LOG1 : UInt8 := 0xa1
abbrev LOG2 : UInt8 := 0xa2
abbrev LOG3 : UInt8 := 0xa3
abbrev LOG4 : UInt8 := 0xa4
abbrev DUPN : UInt8 := 0xe6
abbrev SWAPN : UInt8 := 0xe7
abbrev EXCHANGE : UInt8 := 0xe8
abbrev CREATE : UInt8 := 0xf0
abbrev CALL : UInt8 := 0xf1
abbrev CALLCODE : UInt8 := 0xf2
abbrev RETURN : UInt8 := 0xf3
abbrev DELEGATECALL : UInt8 := 0xf4
abbrev CREATE2 : UInt8 := 0xf5
abbrev STATICCALL : UInt8 := 0xfa
abbrev REVERT : UInt8 := 0xfd
abbrev INVALID : UInt8 := 0xfe
abbrev SELFDESTRUCT : UInt8 := 0xff
end op

/-- `revm_primitives::hardfork::SpecId` (external enum; used at info.rs:78-90 through its numeric
order). Simplification: the discriminant is a natural number; only the order of the named forks
matters. -/
abbrev SpecId := Nat

/-! The named forks of `SpecId`, in order (external enum, used in info.rs:125-150). -/
namespace SpecId
abbrev FRONTIER : SpecId := 0
abbrev HOMESTEAD : SpecId := 1
abbrev TANGERINE : SpecId := 2
abbrev SPURIOUS_DRAGON : SpecId := 3
abbrev BYZANTIUM : SpecId := 4
abbrev PETERSBURG : SpecId := 5
abbrev ISTANBUL : SpecId := 6
abbrev BERLIN : SpecId := 7
abbrev LONDON : SpecId := 8
abbrev MERGE : SpecId := 9
abbrev SHANGHAI : SpecId := 10
abbrev CANCUN : SpecId := 11
abbrev PRAGUE : SpecId := 12
abbrev OSAKA : SpecId := 13
abbrev AMSTERDAM : SpecId := 14
end SpecId

/-- One row of revm's `OPCODE_INFO`: stack inputs, outputs and immediate size. -/
structure OpRow where
  inputs : Nat
  outputs : Nat
  imm : Nat
deriving DecidableEq, Repr

/-- revm's `OPCODE_INFO` table (external crate `revm_bytecode`), as read through
`min_imm_len`/`stack_io` (opcode.rs:186-200) and `OpCode::new` (info.rs:175).
`none` means "not defined". Transcribed from the EVM opcode table; part of the trusted base. -/
def opTable (o : UInt8) : Option OpRow :=
  let n := o.toNat
  if n = 0x00 then some ⟨0, 0, 0⟩
  else if n ≤ 0x07 then some ⟨2, 1, 0⟩
  else if n ≤ 0x09 then some ⟨3, 1, 0⟩
  else if n ≤ 0x0b then some ⟨2, 1, 0⟩
  else if n < 0x10 then none
  else if n ≤ 0x14 then some ⟨2, 1, 0⟩
  else if n = 0x15 then some ⟨1, 1, 0⟩
  else if n ≤ 0x18 then some ⟨2, 1, 0⟩
  else if n = 0x19 then some ⟨1, 1, 0⟩
  else if n ≤ 0x1d then some ⟨2, 1, 0⟩
  else if n = 0x1e then some ⟨1, 1, 0⟩
  else if n = 0x20 then some ⟨2, 1, 0⟩
  else if n < 0x30 then none
  else if n = 0x31 ∨ n = 0x35 ∨ n = 0x3b ∨ n = 0x3f ∨ n = 0x40 ∨ n = 0x49 then some ⟨1, 1, 0⟩
  else if n = 0x37 ∨ n = 0x39 ∨ n = 0x3e then some ⟨3, 0, 0⟩
  else if n = 0x3c then some ⟨4, 0, 0⟩
  else if n ≤ 0x4b then some ⟨0, 1, 0⟩
  else if n < 0x50 then none
  else if n = 0x50 then some ⟨1, 0, 0⟩
  else if n = 0x51 ∨ n = 0x54 ∨ n = 0x5c then some ⟨1, 1, 0⟩
  else if n = 0x52 ∨ n = 0x53 ∨ n = 0x55 ∨ n = 0x57 ∨ n = 0x5d then some ⟨2, 0, 0⟩
  else if n = 0x56 then some ⟨1, 0, 0⟩
  else if n = 0x5b then some ⟨0, 0, 0⟩
  else if n = 0x5e then some ⟨3, 0, 0⟩
  else if n ≤ 0x7f then some ⟨0, 1, n - 0x5f⟩ -- PC, MSIZE, GAS, PUSH0 (imm 0), PUSH1..PUSH32
  else if n ≤ 0x8f then some ⟨n - 0x7f, n - 0x7f + 1, 0⟩
  else if n ≤ 0x9f then some ⟨n - 0x8f + 1, n - 0x8f + 1, 0⟩
  else if n ≤ 0xa4 then some ⟨n - 0xa0 + 2, 0, 0⟩
  else if n = 0xe6 then some ⟨0, 1, 1⟩
  else if n = 0xe7 ∨ n = 0xe8 then some ⟨0, 0, 1⟩
  else if n = 0xf0 then some ⟨3, 1, 0⟩
  else if n = 0xf1 ∨ n = 0xf2 then some ⟨7, 1, 0⟩
  else if n = 0xf3 ∨ n = 0xfd then some ⟨2, 0, 0⟩
  else if n = 0xf4 ∨ n = 0xfa then some ⟨6, 1, 0⟩
  else if n = 0xf5 then some ⟨4, 1, 0⟩
  else if n = 0xfe then some ⟨0, 0, 0⟩
  else if n = 0xff then some ⟨1, 0, 0⟩
  else none

/-- `min_imm_len` (opcode.rs:188-190). -/
def minImmLen (o : UInt8) : Nat := match opTable o with | some r => r.imm | none => 0

/-- `stack_io` (opcode.rs:194-200). -/
def tableStackIo (o : UInt8) : Nat × Nat :=
  match opTable o with | some r => (r.inputs, r.outputs) | none => (0, 0)

/-- `OpcodeInfo` (info.rs:5-7): the packed 32-bit word. -/
abbrev OpcodeInfo := BitVec 32

namespace OpcodeInfo
/-- info.rs:11 -/
def UNKNOWN : BitVec 32 := 1#32 <<< 31
/-- info.rs:13 -/
def DYNAMIC : BitVec 32 := 1#32 <<< 30
/-- info.rs:15 -/
def DISABLED : BitVec 32 := 1#32 <<< 29
/-- info.rs:17 -/
def MASK : BitVec 32 := 0xFFFF#32
/-- `OpcodeInfo::new` (info.rs:21-23). -/
def new (gas : BitVec 16) : OpcodeInfo := gas.zeroExtend 32
/-- `is_unknown` (info.rs:27-29). -/
def isUnknown (i : OpcodeInfo) : Bool := i == UNKNOWN
/-- `is_dynamic` (info.rs:33-35). -/
def isDynamic (i : OpcodeInfo) : Bool := (i &&& DYNAMIC) != 0
/-- `is_disabled` (info.rs:40-42). -/
def isDisabled (i : OpcodeInfo) : Bool := (i &&& DISABLED) != 0
/-- `base_gas` (info.rs:48-50). -/
def baseGas (i : OpcodeInfo) : BitVec 16 := (i &&& MASK).truncate 16
/-- `set_dynamic` (info.rs:60-62). -/
def setDynamic (i : OpcodeInfo) : OpcodeInfo := i ||| DYNAMIC
/-- `set_disabled` (info.rs:66-68). -/
def setDisabled (i : OpcodeInfo) : OpcodeInfo := i ||| DISABLED
/-- `set_gas` (info.rs:72-74). -/
def setGas (i : OpcodeInfo) (gas : BitVec 16) : OpcodeInfo := (i &&& ~~~MASK) ||| gas.zeroExtend 32
end OpcodeInfo

/-- `DYNAMIC_WITH_BASE_GAS` (info.rs:94-119). -/
def DYNAMIC_WITH_BASE_GAS : List UInt8 :=
  [op.EXP, op.KECCAK256, op.BALANCE, op.CALLDATACOPY, op.CODECOPY, op.EXTCODESIZE, op.EXTCODECOPY,
   op.RETURNDATACOPY, op.EXTCODEHASH, op.MLOAD, op.MSTORE, op.MSTORE8, op.MCOPY, op.LOG0, op.LOG1,
   op.LOG2, op.LOG3, op.LOG4, op.SLOAD, op.CALL, op.CALLCODE, op.DELEGATECALL, op.STATICCALL,
   op.SELFDESTRUCT]

/-- `FULLY_DYNAMIC` (info.rs:122). -/
def FULLY_DYNAMIC : List UInt8 := [op.SSTORE, op.CREATE, op.CREATE2]

/-- `SPEC_GATED_OPCODES` (info.rs:125-150). -/
def SPEC_GATED_OPCODES : List (UInt8 × SpecId) :=
  [(op.SHL, SpecId.PETERSBURG), (op.SHR, SpecId.PETERSBURG), (op.SAR, SpecId.PETERSBURG),
   (op.CLZ, SpecId.OSAKA), (op.RETURNDATASIZE, SpecId.BYZANTIUM),
   (op.RETURNDATACOPY, SpecId.BYZANTIUM), (op.EXTCODEHASH, SpecId.PETERSBURG),
   (op.CHAINID, SpecId.ISTANBUL), (op.SELFBALANCE, SpecId.ISTANBUL), (op.BASEFEE, SpecId.LONDON),
   (op.BLOBHASH, SpecId.CANCUN), (op.BLOBBASEFEE, SpecId.CANCUN), (op.TLOAD, SpecId.CANCUN),
   (op.TSTORE, SpecId.CANCUN), (op.MCOPY, SpecId.CANCUN), (op.PUSH0, SpecId.SHANGHAI),
   (op.DELEGATECALL, SpecId.HOMESTEAD), (op.CREATE2, SpecId.PETERSBURG),
   (op.STATICCALL, SpecId.BYZANTIUM), (op.REVERT, SpecId.BYZANTIUM), (op.DUPN, SpecId.AMSTERDAM),
   (op.SWAPN, SpecId.AMSTERDAM), (op.EXCHANGE, SpecId.AMSTERDAM), (op.SLOTNUM, SpecId.AMSTERDAM)]

/-- The first loop of `make_map` (info.rs:168-211), one opcode. `gasTable` is
`gas_table_spec(spec_id)` of the external interpreter, here already a 16-bit value (the Rust code
asserts this at compile time, info.rs:196-199). `UNSUPPORTED_OPCODES` (info.rs:153) is empty and its
branch is omitted. -/
def makeMapBase (gasTable : UInt8 → BitVec 16) (o : UInt8) : OpcodeInfo :=
  match opTable o with
  | none => OpcodeInfo.UNKNOWN
  | some _ =>
    let isFullyDynamic := FULLY_DYNAMIC.contains o
    let isDynamicWithBase := DYNAMIC_WITH_BASE_GAS.contains o
    let gas := if isFullyDynamic then 0 else gasTable o
    let info := OpcodeInfo.new gas
    if isFullyDynamic || isDynamicWithBase then info.setDynamic else info

/-- `make_map` (info.rs:166-224): the base map followed by the spec-gating loop
(info.rs:214-221). -/
def makeMap (gasTable : UInt8 → BitVec 16) (spec : SpecId) : UInt8 → OpcodeInfo :=
  SPEC_GATED_OPCODES.foldl
    (fun m (g : UInt8 × SpecId) =>
      if spec < g.2 then fun o => if o = g.1 then (m o).setDisabled else m o else m)
    (makeMapBase gasTable)

/-- `decode_single` (opcode.rs:218-220). -/
def decodeSingle (x : UInt8) : Option UInt8 :=
  if x ≤ 90 ∨ x ≥ 128 then some (x + 145) else none

/-- `encode_single` (opcode.rs:225-228). -/
def encodeSingle (n : UInt8) : Option UInt8 :=
  let x := n - 145
  if decodeSingle x = some n then some x else none

/-- `decode_pair` (opcode.rs:233-241). The `u16` intermediate never exceeds 255, so it is a `UInt8`
here. -/
def decodePair (x : UInt8) : Option (UInt8 × UInt8) :=
  if x > 81 ∧ x < 128 then none
  else
    let k := x ^^^ 143
    let q := k / 16
    let r := k % 16
    if q < r then some (q + 1, r + 1) else some (r + 1, 29 - q)

/-- The closure `try_k` in `encode_pair` (opcode.rs:251-258). -/
def encodePairTry (n m q r : UInt8) : Option UInt8 :=
  if q ≥ 16 ∨ r ≥ 16 then none
  else
    let x := (q * 16 + r) ^^^ 143
    if decodePair x = some (n, m) then some x else none

/-- `encode_pair` (opcode.rs:246-267). -/
def encodePair (n m : UInt8) : Option UInt8 :=
  if n = 0 ∨ m = 0 then none
  else if n < m then encodePairTry n m (n - 1) (m - 1)
  else if m ≤ 29 then encodePairTry n m (29 - m) (n - 1) else none

/-- `compute_stack_io` (opcode.rs:204-213). -/
def computeStackIo (o : UInt8) (immediate : Option (List UInt8)) : Nat × Nat :=
  let immU8 : UInt8 := match immediate with | some (b :: _) => b | _ => 0
  if o = op.DUPN then
    ((decodeSingle immU8).map fun n => (n.toNat, n.toNat + 1)).getD (0, 0)
  else if o = op.SWAPN then
    ((decodeSingle immU8).map fun n => (n.toNat + 1, n.toNat + 1)).getD (0, 0)
  else if o = op.EXCHANGE then
    ((decodePair immU8).map fun p => (p.2.toNat + 1, p.2.toNat + 1)).getD (0, 0)
  else tableStackIo o

end Verif
