import Verif.Spec.VStack
import Verif.Model.Parse
/-!
# What skipping instructions may not change
-/

namespace Verif.Spec

/-- Opcodes that read nothing an earlier instruction of the same call may have changed except the
stack, change nothing but the stack, and have a fixed cost: arithmetic without EXP, comparisons and
bit operations, the transaction, block and code constants, CALLDATALOAD, RETURNDATASIZE, POP, PC, the
pushes, DUPs, SWAPs and DUPN/SWAPN/EXCHANGE. -/
def stackOnly (o : Nat) : Bool :=
  (0x01 ≤ o && o ≤ 0x09) || o == 0x0b || (0x10 ≤ o && o ≤ 0x1e) || o == 0x30 ||
  (0x32 ≤ o && o ≤ 0x36) || o == 0x38 || o == 0x3a || o == 0x3d || (0x41 ≤ o && o ≤ 0x46) ||
  (0x48 ≤ o && o ≤ 0x4b) || o == 0x50 || o == 0x58 || (0x5f ≤ o && o ≤ 0x9f) || (0xe6 ≤ o && o ≤ 0xe8)

/-- The events somebody outside can observe: an operation without effect cannot be seen. -/
def visible {F : Type} (evs : List (Ev (Option F))) : List (Ev (Option F)) :=
  evs.filter fun e => match e with | .ran none => false | _ => true

/-- The instruction does not end the call: it is a known opcode other than STOP, RETURN, REVERT, INVALID
and SELFDESTRUCT, and not a jump that is known to fail. -/
def staysInCall (d : InstData) : Prop :=
  d.flags.disabled = false ∧ d.flags.unknown = false ∧ d.opcode.toNat ∉ [0x00, 0xf3, 0xfd, 0xfe, 0xff] ∧
    (d.opcode.toNat = 0x56 → d.flags.invalidJump = false)

end Verif.Spec
