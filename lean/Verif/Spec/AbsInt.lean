import Verif.Model.AbsInt
import Verif.Spec.Arith
/-!
# Meaning of abstract values and stacks; concrete stack semantics

What an abstract value says about concrete words, and what each opcode may do to a concrete stack
(the opcode's effect on the environment is arbitrary). Written against the EVM, independently of the
abstract interpreter.
-/

namespace Verif.Spec

/-- The words an abstract value stands for. -/
def Admits : AbsValue → Word → Prop
  | .const v, w => w = v
  | .constSet s, w => w ∈ s
  | .top, _ => True

/-- Well-formed values: a set has at least two elements in strictly increasing order. -/
def WF : AbsValue → Prop
  | .constSet s => 2 ≤ s.length ∧ s.Pairwise (fun a b => a.toNat < b.toNat)
  | _ => True

/-- An abstract stack (top first) describes a concrete stack (top first): wherever both have an
element, the abstract one admits the concrete one. -/
def AdmitsStack (a : List AbsValue) (c : List Word) : Prop :=
  ∀ (i : Nat) (v : AbsValue) (w : Word), a[i]? = some v → c[i]? = some w → Admits v w

/-- A block state describes a concrete stack; `bottom` describes none. -/
def AdmitsState : BlockState → List Word → Prop
  | .bottom, _ => False
  | .known a, c => AdmitsStack a c

/-- EIP-8024 operand of DUPN/SWAPN. -/
def single (x : Nat) : Option Nat :=
  if x ≤ 90 ∨ (128 ≤ x ∧ x ≤ 255) then some ((x + 145) % 256) else none

/-- EIP-8024 operands of EXCHANGE. -/
def pair (x : Nat) : Option (Nat × Nat) :=
  if x ≤ 81 ∨ (128 ≤ x ∧ x ≤ 255) then
    let k := x ^^^ 143
    if k / 16 < k % 16 then some (k / 16 + 1, k % 16 + 1) else some (k % 16 + 1, 29 - k / 16)
  else none

/-- The possible effects of a completed instruction on the stack. `imm` is the value of its immediate,
`inp`/`out` the number of popped and pushed items. Opcodes that are not pure functions of their
operands push arbitrary words. -/
inductive StackStep (codeLen pc : Nat) (o : Nat) (imm : Word) (inp out : Nat) :
    List Word → List Word → Prop
  | push (c : List Word) : 0x5f ≤ o → o ≤ 0x7f → StackStep codeLen pc o imm inp out c (imm :: c)
  | dup (c : List Word) (w : Word) : 0x80 ≤ o → o ≤ 0x8f → c[o - 0x80]? = some w →
      StackStep codeLen pc o imm inp out c (w :: c)
  | swap (a b : Word) (m r : List Word) : 0x90 ≤ o → o ≤ 0x9f → m.length = o - 0x90 →
      StackStep codeLen pc o imm inp out (a :: m ++ b :: r) (b :: m ++ a :: r)
  | dupn (c : List Word) (w : Word) (n : Nat) : o = 0xe6 → single (imm.toNat % 256) = some n →
      c[n - 1]? = some w → StackStep codeLen pc o imm inp out c (w :: c)
  | swapn (a b : Word) (m r : List Word) : o = 0xe7 → single (imm.toNat % 256) = some (m.length + 1) →
      StackStep codeLen pc o imm inp out (a :: m ++ b :: r) (b :: m ++ a :: r)
  | exchange (a b : Word) (p m r : List Word) : o = 0xe8 →
      pair (imm.toNat % 256) = some (p.length, p.length + m.length + 1) →
      StackStep codeLen pc o imm inp out (p ++ a :: m ++ b :: r) (p ++ b :: m ++ a :: r)
  | pure (args r : List Word) (w : Word) : evalOp codeLen pc o args = some w →
      StackStep codeLen pc o imm inp out (args ++ r) (w :: r)
  | other (args res r : List Word) : ¬ (0x5f ≤ o ∧ o ≤ 0x9f) → o ∉ [0xe6, 0xe7, 0xe8] →
      args.length = inp → res.length = out → evalOp codeLen pc o args = none →
      StackStep codeLen pc o imm inp out (args ++ r) (res ++ r)

/-- Execution of a straight-line sequence of numbered instructions from one stack to another. -/
inductive Exec (code : Code) : List (Nat × InstData) → List Word → List Word → Prop
  | nil (c : List Word) : Exec code [] c c
  | cons (i : Nat) (d : InstData) (rest : List (Nat × InstData)) (c c' c'' : List Word) :
      StackStep code.codeLen d.data d.opcode.toNat (code.imm i) d.stackIo.1 d.stackIo.2 c c' →
      Exec code rest c' c'' → Exec code ((i, d) :: rest) c c''

/-- Gas the EVM (since Spurious Dragon) charges for a pure opcode on operands `args` (top first):
the tiers base, very low, low, mid, and for EXP 10 plus 50 per byte of the exponent, i.e. per digit
base 256. -/
def pureGas (o : Nat) (args : List Word) : Option Nat :=
  if o ∈ [0x38, 0x58] then some 2
  else if o ∈ [0x01, 0x03, 0x10, 0x11, 0x12, 0x13, 0x14, 0x15, 0x16, 0x17, 0x18, 0x19, 0x1a, 0x1b, 0x1c,
    0x1d, 0x1e] then some 3
  else if o ∈ [0x02, 0x04, 0x05, 0x06, 0x07, 0x0b] then some 5
  else if o ∈ [0x08, 0x09] then some 8
  else if o = 0x0a then
    match args with
    | [_, e] => some (10 + 50 * (((List.range 33).find? fun k => e.toNat < 256 ^ k).getD 33))
    | _ => none
  else none

end Verif.Spec
