import Verif.Model.Opcode
/-!
# Specification of EVM code layout

Written from the Yellow Paper (jump-destination set, appendix H PUSH semantics) and EIP-8024
("the jump-destination analysis is unchanged"). Independent of the model.
-/

namespace Verif.Spec

/-- Number of data bytes that the EVM's jump-destination scan skips after the byte `o`:
`PUSH1 = 0x60 .. PUSH32 = 0x7f` skip 1..32, everything else nothing. -/
def pushDataLen (o : UInt8) : Nat :=
  if 0x60 ≤ o.toNat ∧ o.toNat ≤ 0x7f then o.toNat - 0x5f else 0

/-- Positions at which the EVM's jump-destination scan looks at a byte as an opcode. -/
inductive ScanPos (code : List UInt8) : Nat → Prop
  | zero : ScanPos code 0
  | next {i : Nat} {o : UInt8} : ScanPos code i → code[i]? = some o →
      ScanPos code (i + 1 + pushDataLen o)

/-- The EVM's set of valid jump destinations. -/
def IsJumpDest (code : List UInt8) (pc : Nat) : Prop :=
  ScanPos code pc ∧ code[pc]? = some 0x5b

/-- Byte `i` of the code, zero beyond the end. -/
def codeByte (code : List UInt8) (i : Nat) : Nat :=
  match code[i]? with | some b => b.toNat | none => 0

/-- The value pushed by a `PUSHn` at `pc`: `n` bytes after it, big-endian, zero beyond the end. -/
def pushValue (code : List UInt8) (pc : Nat) : Nat → Nat
  | 0 => 0
  | n + 1 => pushValue code pc n * 256 + codeByte code (pc + 1 + n)

/-- Number of immediate bytes that belong to an instruction `o` in fork `spec`, when `b?` is the byte
after it: PUSH1..PUSH32 have 1..32; from Amsterdam on DUPN/SWAPN/EXCHANGE (0xe6..0xe8) have one,
except that a following 0x5b stays a JUMPDEST of its own. -/
def immLen (spec : SpecId) (o : UInt8) (b? : Option UInt8) : Nat :=
  if 0x60 ≤ o.toNat ∧ o.toNat ≤ 0x7f then o.toNat - 0x5f
  else if 0xe6 ≤ o.toNat ∧ o.toNat ≤ 0xe8 ∧ SpecId.AMSTERDAM ≤ spec ∧ b? ≠ some 0x5b then 1
  else 0

end Verif.Spec
