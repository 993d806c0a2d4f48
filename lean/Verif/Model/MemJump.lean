import Verif.Model.Parse
/-!
# Emitted memory bounds check and dynamic jump table

Models `u256_to_u64_saturating`, `build_ensure_memory` and the dynamic jump lowering
(`crates/revmc-codegen/src/compiler/translate/mod.rs`).
-/

namespace Verif

/-- `u256_to_u64_saturating` (translate/mod.rs:2021-2029). `sentinel_lit` is a `u128`:
`checked_shl` fails from 128 bits on, and the subtraction wraps. -/
def satU64 (value : Word) (bits : Nat) : BitVec 64 :=
  let reduced : BitVec 64 := value.setWidth 64
  let lit : BitVec 128 := (if bits < 128 then 1#128 <<< bits else 0#128) - 1#128
  if value ≤ lit.setWidth 256 then reduced else lit.setWidth 64

/-- What the code emitted by `build_ensure_memory` does for one access. -/
inductive MemCheck
  /-- No resize; the access uses `mem_base + addr`. -/
  | fast (addr : BitVec 64)
  /-- `Mresize(min_size)` is called first; then the access uses `mem_base + addr`. -/
  | resize (minSize addr : BitVec 64)
deriving DecidableEq, Repr

/-- `build_ensure_memory` (translate/mod.rs:1688-1722), run-time behaviour of the general branch
(no skip and no direct resize; those depend on the memory-section analysis, see C22).
`len` is the constant access size, `memLen` the value of `ecx.mem_len`. -/
def ensureMem (offset : Word) (len memLen : BitVec 64) : MemCheck :=
  let off := satU64 offset 63
  let minSize := off + len
  if memLen < minSize then .resize minSize off else .fast off

/-- `num_words` (revm): bytes to 32-byte words, used by `Mresize` (revmc-builtins lib.rs:475-477,
utils.rs:86-96, `resize_memory(gas, memory, params, min_size, 0)`). -/
def numWords (n : Nat) : Nat := (n + 31) / 32

/-- The memory length after a successful `Mresize(n)` (revm `resize_memory`): grows to whole words,
never shrinks. -/
def mresizeLen (memLen n : Nat) : Nat := max memLen (32 * numWords n)

/-- The dynamic jump table (translate/mod.rs:328-336): one case per `JUMPDEST` instruction, keyed by
its counter, in instruction order; the entry is the block of the instruction after redirection. -/
def jumpTable (redirect : Nat → Nat) : Nat → List InstData → List (BitVec 64 × Nat)
  | _, [] => []
  | i, d :: ds =>
    if d.opcode == op.JUMPDEST then (BitVec.ofNat 64 d.data, redirect i) :: jumpTable redirect (i + 1) ds
    else jumpTable redirect (i + 1) ds

/-- A dynamic `JUMP` with operand `w` (translate/mod.rs:1028-1035 and 336): the saturated operand is
switched on; no matching case is `InvalidJump` (`none`). -/
def dynJump (redirect : Nat → Nat) (insts : List InstData) (w : Word) : Option Nat :=
  (jumpTable redirect 0 insts).lookup (satU64 w 64)

/-- A resolved multi-target `JUMP` (translate/mod.rs:1014-1023): a switch on the full 256-bit operand
over the counters of the resolved targets. -/
def multiJump (redirect : Nat → Nat) (insts : List InstData) (targets : List Nat) (w : Word) :
    Option Nat :=
  (targets.filterMap fun t => (insts[t]?).map fun d => (BitVec.ofNat 256 d.data, redirect t)).lookup w

end Verif
