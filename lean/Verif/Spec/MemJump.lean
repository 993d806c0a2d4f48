import Verif.Model.MemJump
import Verif.Props.Parse
/-!
# Specification: memory bounds and dynamic jumps
-/

namespace Verif

/-- The EVM's memory cost of `w` words (Yellow Paper, `C_mem`). -/
def Spec.memCost (w : Nat) : Nat := 3 * w + w * w / 512

/-- The instructions of a parse, without their counters. -/
def Parsed.instData (b : Parsed) : List InstData := b.insts.map (·.2)

end Verif
