import Verif.Model.Flow
/-!
# From the parsed bytecode to the analyses
-/

namespace Verif

/-- What the abstract interpreter reads of a parsed program: immediates through the interner
(bytecode/mod.rs:627-630) and valid jump targets (block_analysis.rs:793-798). -/
def Parsed.toCode (b : Parsed) : Code where
  codeLen := b.code.length
  imm i := (b.pushValue i).getD 0
  target w := if b.isValidJump w.toNat then b.pcToInst w.toNat else none

/-- The control-flow fields after parsing (bytecode/mod.rs:305-347). -/
def Parsed.toProg (b : Parsed) : Prog := { insts := b.insts.map (·.2) }

/-- Parsing and the control-flow passes of `Bytecode::analyze` before deduplication
(bytecode/mod.rs:233-347, 421-433). -/
def analyzeBytes (gasTable : UInt8 → BitVec 16) (spec : SpecId) (limit : Nat) (bytes : List UInt8) :
    Prog × AIState :=
  let b := parse gasTable spec bytes
  analyzeFlow b.toCode limit b.toProg

end Verif
