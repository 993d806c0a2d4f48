import Verif.Spec.WholeDedup
import Verif.Spec.WholeGas
/-!
# Costs that do not see the program counter
-/

namespace Verif.Spec

/-- The dynamic cost of an instruction does not depend on where in the code it is: instructions with the same opcode and
the same numbers of operands and results cost the same on the same operands. -/
def PlacelessCosts (insts : List InstData) (dyn : Nat → Nat → List Word → Nat) : Prop :=
  ∀ k i j d e args, insts[i]? = some d → insts[j]? = some e → e.opcode = d.opcode → e.stackIo = d.stackIo →
    dyn k j args = dyn k i args

end Verif.Spec
