import Verif.Spec.Whole
/-!
# Worlds that do not see the program counter
-/

namespace Verif.Spec

/-- What an instruction does to the world, and the words it gets from it, do not depend on where in the code it is:
instructions with the same opcode and the same numbers of operands and results behave alike. -/
def Placeless {F : Type} (insts : List InstData) (env : Env F) : Prop :=
  ∀ k i j d e args, insts[i]? = some d → insts[j]? = some e → e.opcode = d.opcode → e.stackIo = d.stackIo →
    env k j args = env k i args

end Verif.Spec
