import Verif.Model.WholeGas
import Verif.Model.WholeDedup
/-!
# Gas in a whole compiled program with deduplicated blocks

`Model/WholeGas.lean` with the transfers of `Model/WholeDedup.lean`: the sections are those of the deduplicated program
(`bytecode/mod.rs`:433-460), whose merged blocks are dead code. Memory sections are not part of this model.
-/

namespace Verif
variable {F : Type}

/-- One block (translate/mod.rs:198-470), from its first instruction. -/
def DCompiled.gasBlock (D : DCompiled) (expCost : Word → Nat) (env : Env F) (dyn : Nat → Nat → List Word → Nat)
    (clob : Nat → Int → Word) (k i : Nat) (cx : SCx (Option (Paid F))) (g : Nat) (rd : List (Nat × Nat)) : GOut F :=
  match D.blocks.find? fun b => b.start == i with
  | none => .panic
  | some b =>
    match gasSections (D.toCompiled.gsecs expCost env dyn clob k b) cx g rd with
    | .done cx g rd => (D.leave k b cx).withGas g rd
    | .fail f _ => .stackError f
    | .bad i _ => .badImmediate i
    | .outOfGas => .outOfGas
    | .panic => .panic

/-- `n` blocks of the compiled program, started with `g` gas and an empty stack in a buffer holding `mem`
(translate/mod.rs:308-312, 345-354). -/
def DCompiled.runG (D : DCompiled) (expCost : Word → Nat) (env : Env F) (dyn : Nat → Nat → List Word → Nat)
    (clob : Nat → Int → Word) (mem : Int → Word) (g : Nat) : Nat → GOut F
  | 0 => .running 0 0 { mem := mem } g []
  | n + 1 =>
    match D.runG expCost env dyn clob mem g n with
    | .running k i cx g rd => D.gasBlock expCost env dyn clob k i cx g rd
    | o => o

end Verif
