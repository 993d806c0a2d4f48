import Verif.Model.MemSections
/-!
# Specification: the memory accesses of the EVM
-/

namespace Verif.Spec

/-- The memory ranges (offset and length) an instruction touches, by opcode and operands (top first). -/
def memRanges (o : Nat) (args : List Word) : List (Nat × Nat) :=
  let a (k : Nat) : Nat := (args[k]?.getD 0).toNat
  if o = 0x20 then [(a 0, a 1)]                                  -- KECCAK256
  else if o = 0x37 ∨ o = 0x39 ∨ o = 0x3e then [(a 0, a 2)]       -- CALLDATACOPY, CODECOPY, RETURNDATACOPY
  else if o = 0x3c then [(a 1, a 3)]                             -- EXTCODECOPY
  else if o = 0x51 ∨ o = 0x52 then [(a 0, 32)]                   -- MLOAD, MSTORE
  else if o = 0x53 then [(a 0, 1)]                               -- MSTORE8
  else if o = 0x5e then [(a 0, a 2), (a 1, a 2)]                 -- MCOPY
  else if 0xa0 ≤ o ∧ o ≤ 0xa4 then [(a 0, a 1)]                  -- LOG0..LOG4
  else if o = 0xf0 ∨ o = 0xf5 then [(a 1, a 2)]                  -- CREATE, CREATE2
  else if o = 0xf1 ∨ o = 0xf2 then [(a 3, a 4), (a 5, a 6)]      -- CALL, CALLCODE
  else if o = 0xf4 ∨ o = 0xfa then [(a 2, a 3), (a 4, a 5)]      -- DELEGATECALL, STATICCALL
  else if o = 0xf3 ∨ o = 0xfd then [(a 0, a 1)]                  -- RETURN, REVERT
  else []

/-- The memory size after touching a range: whole words, nothing for an empty range. -/
def grow (m : Nat) (r : Nat × Nat) : Nat := if r.2 = 0 then m else max m (32 * ((r.1 + r.2 + 31) / 32))

/-- The memory size after an instruction. -/
def growAll (m : Nat) (rs : List (Nat × Nat)) : Nat := rs.foldl grow m

/-- A possible successful execution of an instruction with these operands: it is a known instruction, the
operands are those the analyses know, and the memory it touches ends below `2^63` (more cannot be
paid for, see C23). -/
structure Runs (st : AIState) (p : Nat × InstData) (args : List Word) : Prop where
  on : (p.2.flags.disabled || p.2.flags.unknown) = false
  known : ∀ k c, st.constOperand p.1 k = some c → args[k]? = some c
  small : ∀ r ∈ memRanges p.2.opcode.toNat args, r.2 ≠ 0 → r.1 + r.2 < 2 ^ 63

/-- A possible execution of consecutive instructions, from memory size `m` to `m'`. -/
inductive RunsAll (st : AIState) : List (Nat × InstData) → Nat → Nat → Prop
  | nil (m : Nat) : RunsAll st [] m m
  | cons {p l m m' args} : Runs st p args →
      RunsAll st l (growAll m (memRanges p.2.opcode.toNat args)) m' → RunsAll st (p :: l) m m'

/-- The blocks an execution can be in, with the memory size at the block's start: it starts in the first
block with empty memory, and goes on along edges; blocks that jump dynamically may go to any dynamic
target. -/
inductive MemPath (st : AIState) (bs : List MBlock) : Nat → Nat → Prop
  | start : MemPath st bs 0 0
  | edge {b m m' b' blk} : MemPath st bs b m → bs[b]? = some blk → RunsAll st blk.insts m m' →
      (b' ∈ blk.succs ∨ (blk.dynJump = true ∧ ∃ blk', bs[b']? = some blk' ∧ blk'.dynTarget = true)) →
      MemPath st bs b' m'

/-- Excluded from the partial theorems: a LOG1..LOG4 whose last topic (operand `n + 1`) is known to the
analyses and fits 64 bits. -/
def NoSmallTopic (st : AIState) (p : Nat × InstData) : Prop :=
  ∀ n, 1 ≤ n → n ≤ 4 → p.2.opcode.toNat = 0xa0 + n → ∀ c, st.constOperand p.1 (n + 1) = some c → 2 ^ 64 ≤ c.toNat

end Verif.Spec
