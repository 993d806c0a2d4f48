import Verif.Props.Builtins
import Verif.Props.Parse
/-!
# Specification: data access
-/

namespace Verif.Builtins

/-- The number formed by `n` bytes of `data` from `off` on, big-endian, zero beyond the end. -/
def Spec.dataWord (data : List UInt8) (off : Nat) : Nat → Nat
  | 0 => 0
  | n + 1 => Spec.dataWord data off n * 256 + Verif.Spec.codeByte data (off + n)

end Verif.Builtins
