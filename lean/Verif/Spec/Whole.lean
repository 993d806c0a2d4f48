import Verif.Spec.Flow
import Verif.Spec.Dse
import Verif.Model.Whole
/-!
# Whole executions, and what can be observed of them

The EVM on a program: instruction after instruction on one list of words, with the answers of the world
and the effects on it. Written without reference to blocks, sections or the analyses.
-/

namespace Verif.Spec
variable {F : Type}

/-- Instructions that only compute on the stack (their cost aside): besides `stackOnly` STOP, EXP, JUMP, JUMPI,
JUMPDEST and INVALID. -/
def silent (o : Nat) : Bool := stackOnly o || [0x00, 0x0a, 0x56, 0x57, 0x5b, 0xfe].contains o

/-- The world answers like an EVM host: with as many words as the instruction pushes, without effect where
the instruction has none, and the hash of an empty memory range does not depend on its offset. -/
structure World (insts : List InstData) (env : Env F) : Prop where
  len : ∀ k i d args, insts[i]? = some d → (env k i args).1.length = d.stackIo.2
  quiet : ∀ k i d args, insts[i]? = some d → silent d.opcode.toNat = true → (env k i args).2 = none
  hash : ∀ k i d x y, insts[i]? = some d → d.opcode.toNat = 0x20 → env k i [x, 0] = env k i [y, 0]

/-- What can be observed: an effect, or a call or creation, which shows the stack (bottom first, without the
operands). -/
inductive Obs (F : Type)
  | effect (f : F)
  | called (stack : List Word)
deriving DecidableEq, Repr

/-- CREATE, CALL, CALLCODE, DELEGATECALL, CREATE2, STATICCALL. -/
def callOp (o : Nat) : Bool := [0xf0, 0xf1, 0xf2, 0xf4, 0xf5, 0xfa].contains o

/-- What is observed of the `k`-th executed instruction `d`, at index `i` on stack `c`; latest first. Nothing
if it is disabled or unknown. -/
def observed (env : Env F) (k i : Nat) (d : InstData) (c : List Word) : List (Obs F) :=
  if d.flags.disabled || d.flags.unknown then []
  else (if callOp d.opcode.toNat then [.called (c.drop d.stackIo.1).reverse] else []) ++
    ((env k i (c.take d.stackIo.1)).2.toList.map .effect)

/-- The words pushed by instructions that are neither pushes, shuffles nor functions of their operands are those
the world answers. -/
def Follows (code : Code) (env : Env F) (k i : Nat) (d : InstData) (c c' : List Word) : Prop :=
  ¬ (0x5f ≤ d.opcode.toNat ∧ d.opcode.toNat ≤ 0x9f) → d.opcode.toNat ∉ [0xe6, 0xe7, 0xe8] →
  evalOp code.codeLen d.data d.opcode.toNat (c.take d.stackIo.1) = none →
  c' = (env k i (c.take d.stackIo.1)).1 ++ c.drop d.stackIo.1

/-- Executions from the first instruction with an empty stack that never exceed 1024 words and whose every
position satisfies `ok`: after `k` instructions at `i` with stack `c`, with observations `tr` (latest first). -/
inductive Run (code : Code) (insts : List InstData) (env : Env F) (ok : Nat → List Word → Prop) :
    Nat → Nat → List Word → List (Obs F) → Prop
  | start : ok 0 [] → Run code insts env ok 0 0 [] []
  | step {k i i' : Nat} {c c' : List Word} {tr : List (Obs F)} {d : InstData} :
      Run code insts env ok k i c tr → insts[i]? = some d → Step code insts i c i' c' →
      Follows code env k i d c c' → c'.length ≤ 1024 → ok i' c' →
      Run code insts env ok (k + 1) i' c' (observed env k i d c ++ tr)

/-- DUPN, SWAPN or EXCHANGE with an immediate that EIP-8024 does not assign a meaning. -/
def Undecodable (code : Code) (i : Nat) (d : InstData) : Prop :=
  ¬ (d.flags.disabled = true ∨ d.flags.unknown = true) ∧
    ((d.opcode.toNat ∈ [0xe6, 0xe7] ∧ single ((code.imm i).toNat % 256) = none) ∨
      (d.opcode.toNat = 0xe8 ∧ pair ((code.imm i).toNat % 256) = none))

/-- The lowest height that instructions with the given inputs and outputs reach from height `h`, operands
included. -/
def lowest : List (Nat × Nat) → Int → Int
  | [], h => h
  | (a, b) :: l, h => min (h - a) (lowest l (h - a + b))

/-- The greatest height they leave. -/
def highest : List (Nat × Nat) → Int → Int
  | [], h => h
  | (a, b) :: l, h => max h (highest l (h - a + b))

/-- What the events of compiled code show: effects and suspensions. -/
def shown (evs : List (Ev (Option F))) : List (Obs F) :=
  evs.filterMap fun e => match e with
    | .ran (some f) => some (.effect f)
    | .suspended s => some (.called s)
    | _ => none

end Verif.Spec
