import Verif.Model.Opcode
/-!
# Specification of opcode availability

The hard fork that introduced each opcode, written from the EIPs (not from `info.rs`).
`none` = not an opcode. Constantinople and Petersburg are one fork here, as in revm.
-/

namespace Verif.Spec

/-- Fork that introduced opcode number `n`, if `n` is an opcode at all. -/
def introFork (n : Nat) : Option SpecId :=
  -- Frontier arithmetic, comparison, bitwise, KECCAK256
  if n ≤ 0x0b ∨ (0x10 ≤ n ∧ n ≤ 0x1a) ∨ n = 0x20 then some SpecId.FRONTIER
  -- EIP-145 shifts
  else if 0x1b ≤ n ∧ n ≤ 0x1d then some SpecId.PETERSBURG
  -- EIP-7939 CLZ
  else if n = 0x1e then some SpecId.OSAKA
  -- EIP-211 RETURNDATASIZE / RETURNDATACOPY
  else if n = 0x3d ∨ n = 0x3e then some SpecId.BYZANTIUM
  -- EIP-1052 EXTCODEHASH
  else if n = 0x3f then some SpecId.PETERSBURG
  -- environment and block opcodes
  else if 0x30 ≤ n ∧ n ≤ 0x45 then some SpecId.FRONTIER
  -- EIP-1344 CHAINID, EIP-1884 SELFBALANCE
  else if n = 0x46 ∨ n = 0x47 then some SpecId.ISTANBUL
  -- EIP-3198 BASEFEE
  else if n = 0x48 then some SpecId.LONDON
  -- EIP-4844 BLOBHASH, EIP-7516 BLOBBASEFEE
  else if n = 0x49 ∨ n = 0x4a then some SpecId.CANCUN
  -- EIP-7843 SLOTNUM
  else if n = 0x4b then some SpecId.AMSTERDAM
  -- stack, memory, storage, flow
  else if 0x50 ≤ n ∧ n ≤ 0x5b then some SpecId.FRONTIER
  -- EIP-1153 TLOAD/TSTORE, EIP-5656 MCOPY
  else if 0x5c ≤ n ∧ n ≤ 0x5e then some SpecId.CANCUN
  -- EIP-3855 PUSH0
  else if n = 0x5f then some SpecId.SHANGHAI
  -- PUSH1..PUSH32, DUP, SWAP, LOG
  else if 0x60 ≤ n ∧ n ≤ 0xa4 then some SpecId.FRONTIER
  -- EIP-8024 DUPN, SWAPN, EXCHANGE
  else if 0xe6 ≤ n ∧ n ≤ 0xe8 then some SpecId.AMSTERDAM
  -- CREATE, CALL, CALLCODE, RETURN
  else if 0xf0 ≤ n ∧ n ≤ 0xf3 then some SpecId.FRONTIER
  -- EIP-7 DELEGATECALL
  else if n = 0xf4 then some SpecId.HOMESTEAD
  -- EIP-1014 CREATE2
  else if n = 0xf5 then some SpecId.PETERSBURG
  -- EIP-214 STATICCALL, EIP-140 REVERT
  else if n = 0xfa ∨ n = 0xfd then some SpecId.BYZANTIUM
  -- INVALID, SELFDESTRUCT
  else if n = 0xfe ∨ n = 0xff then some SpecId.FRONTIER
  else none

/-- Opcode `n` exists and is active in fork `spec`. -/
def activeIn (spec : SpecId) (n : Nat) : Prop := ∃ f, introFork n = some f ∧ f ≤ spec

instance (spec : SpecId) (n : Nat) : Decidable (activeIn spec n) := by
  unfold activeIn
  cases introFork n with
  | none => exact isFalse (by simp)
  | some f => exact decidable_of_iff (f ≤ spec) (by simp)

end Verif.Spec
