import Verif.Model.Parse
/-!
# Specification of straight-line sections

What a section is, and how the interpreter checks stack heights and charges gas one instruction at
a time. Independent of the section analysis.
-/

namespace Verif.Spec

/-- A section may continue after instruction `d` iff `ends d = false`; a section must start at `d`
if `entry d`. `dead d` instructions are not executed. `restOfSection l` is the part of `l` that
belongs to the section of a preceding instruction that does not end it. -/
def restOfSection {α : Type} (dead entry ends : α → Bool) : List α → List α
  | [] => []
  | d :: rest =>
    if dead d then restOfSection dead entry ends rest
    else if entry d then []
    else d :: if ends d then [] else restOfSection dead entry ends rest

/-- For each instruction: the list of the instructions of its section if it is the first live
instruction of one, otherwise `none`. `fresh` says whether a new section has to start. -/
def sections {α : Type} (dead entry ends : α → Bool) : Bool → List α → List (Option (List α))
  | _, [] => []
  | fresh, d :: rest =>
    if dead d then none :: sections dead entry ends fresh rest
    else (if fresh || entry d then
        some (d :: if ends d then [] else restOfSection dead entry ends rest) else none) ::
      sections dead entry ends (ends d) rest

/-- Opcodes that read the remaining gas: GAS; CALL, CALLCODE, DELEGATECALL, STATICCALL, CREATE and
CREATE2 (63/64 rule); SSTORE from Istanbul on (stipend check). Istanbul is fork number 6. -/
def readsGas (fork : Nat) (opcode : UInt8) : Prop :=
  opcode ∈ [(0x5a : UInt8), 0xf0, 0xf1, 0xf2, 0xf4, 0xf5, 0xfa] ∨ (opcode = 0x55 ∧ 6 ≤ fork)

/-- Opcodes after which the next instruction is not (always) executed: JUMP, JUMPI, STOP, RETURN,
REVERT, INVALID, SELFDESTRUCT. -/
def transfersControl (opcode : UInt8) : Prop :=
  opcode ∈ [(0x56 : UInt8), 0x57, 0x00, 0xf3, 0xfd, 0xfe, 0xff]

/-- The interpreter runs instructions with the given (inputs, outputs): does it report a stack
underflow or overflow when started at height `h`? -/
def stackFails : Nat → List (Nat × Nat) → Prop
  | _, [] => False
  | h, (inp, out) :: rest => h < inp ∨ 1024 < h - inp + out ∨ stackFails (h - inp + out) rest

instance decStackFails : (h : Nat) → (l : List (Nat × Nat)) → Decidable (stackFails h l)
  | _, [] => inferInstanceAs (Decidable False)
  | h, (inp, out) :: rest =>
    have := decStackFails (h - inp + out) rest
    inferInstanceAs (Decidable (h < inp ∨ 1024 < h - inp + out ∨ stackFails (h - inp + out) rest))

/-- The interpreter charges for each instruction a static and then a dynamic cost; `none` is out of
gas. -/
def chargeEach : Nat → List (Nat × Nat) → Option Nat
  | g, [] => some g
  | g, (st, dy) :: rest => if g < st then none else if g - st < dy then none
    else chargeEach (g - st - dy) rest

end Verif.Spec
