import Verif.Spec.AbsInt
/-!
# Specification of executions

Small-step semantics of a program on its stack, written against the EVM: where execution may go from an
instruction and with which stack. Call data, storage and host answers are arbitrary (instructions that
read them push arbitrary words, see `StackStep`).
-/

namespace Verif.Spec

/-- Instructions that end the call: disabled or unknown opcodes, STOP, RETURN, REVERT, INVALID,
SELFDESTRUCT. -/
def Halts (d : InstData) : Prop :=
  d.flags.disabled = true ∨ d.flags.unknown = true ∨ d.opcode.toNat ∈ [0x00, 0xf3, 0xfd, 0xfe, 0xff]

/-- One step of an execution: from instruction and stack (top first) to instruction and stack. A jump to an
invalid destination ends the execution. -/
inductive Step (code : Code) (insts : List InstData) : Nat → List Word → Nat → List Word → Prop
  | seq {i : Nat} {d : InstData} {c c' : List Word} : insts[i]? = some d → ¬ Halts d →
      d.opcode.toNat ≠ 0x56 → d.opcode.toNat ≠ 0x57 →
      StackStep code.codeLen d.data d.opcode.toNat (code.imm i) d.stackIo.1 d.stackIo.2 c c' →
      Step code insts i c (i + 1) c'
  | jump {i : Nat} {d : InstData} {w : Word} {r : List Word} {t : Nat} : insts[i]? = some d → ¬ Halts d →
      d.opcode.toNat = 0x56 → code.target w = some t → Step code insts i (w :: r) t r
  | taken {i : Nat} {d : InstData} {w b : Word} {r : List Word} {t : Nat} : insts[i]? = some d → ¬ Halts d →
      d.opcode.toNat = 0x57 → b ≠ 0 → code.target w = some t → Step code insts i (w :: b :: r) t r
  | fall {i : Nat} {d : InstData} {w : Word} {r : List Word} : insts[i]? = some d → ¬ Halts d →
      d.opcode.toNat = 0x57 → Step code insts i (w :: 0 :: r) (i + 1) r

/-- The instructions and stacks executions visit, starting at the first instruction with an empty stack,
along executions whose every visited position satisfies `ok`. -/
inductive Reach (code : Code) (insts : List InstData) (ok : Nat → List Word → Prop) : Nat → List Word → Prop
  | start : ok 0 [] → Reach code insts ok 0 []
  | step {i i' : Nat} {c c' : List Word} : Reach code insts ok i c → Step code insts i c i' c' → ok i' c' →
      Reach code insts ok i' c'

/-- Every position is visited by every execution. -/
def always (_ : Nat) (_ : List Word) : Prop := True

/-- The stack has at most 64 words whenever execution is at a JUMPDEST or right after a JUMPI. -/
def shallow (insts : List InstData) (i : Nat) (c : List Word) : Prop :=
  (∃ d, insts[i]? = some d ∧ d.opcode.toNat = 0x5b) ∨
    (0 < i ∧ ∃ d, insts[i - 1]? = some d ∧ d.opcode.toNat = 0x57) → c.length ≤ 64

/-- Where the EVM goes from a jump with enough operands; `none` is an invalid jump. -/
def evmNext (code : Code) (i : Nat) (d : InstData) (c : List Word) : Option Nat :=
  if d.opcode.toNat = 0x56 then code.target (c.headD 0)
  else if c.tail.headD 0 = 0 then some (i + 1) else code.target (c.headD 0)

end Verif.Spec
