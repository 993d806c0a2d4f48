import Verif.Spec.AbsInt
/-!
# Specification of mergeable blocks
-/

namespace Verif.Spec

/-- Opcodes followed by an immediate: PUSH1..PUSH32, DUPN, SWAPN, EXCHANGE. -/
def carriesImm (o : UInt8) : Prop := (0x60 ≤ o.toNat ∧ o.toNat ≤ 0x7f) ∨ (0xe6 ≤ o.toNat ∧ o.toNat ≤ 0xe8)

instance (o : UInt8) : Decidable (carriesImm o) := by unfold carriesImm; infer_instance

/-- Two instruction sequences have the same opcodes with the same immediate values in the same order. -/
def SameCode (code : Code) (a b : List (Nat × InstData)) : Prop :=
  a.map (fun x => (x.2.opcode, if carriesImm x.2.opcode then some (code.imm x.1) else none)) =
    b.map (fun x => (x.2.opcode, if carriesImm x.2.opcode then some (code.imm x.1) else none))

end Verif.Spec
