import Verif.Spec.Flow
import Verif.Spec.MemSections
/-!
# Whole executions with memory

The EVM with its memory: bytes, growing by whole words when they are touched. Written without reference to sections,
pointers or caches.
-/

namespace Verif.Spec

/-- The memory grown to `n` bytes. -/
def expand (m : List UInt8) (n : Nat) : List UInt8 := m ++ List.replicate (n - m.length) 0

/-- The word with the given bytes, most significant first. -/
def beWord (bs : List UInt8) : Word := BitVec.ofNat 256 (bs.foldl (fun a b => 256 * a + b.toNat) 0)

/-- The bytes of a word, most significant first. -/
def beBytes (w : Word) : List UInt8 := (List.range 32).map fun j => UInt8.ofNat (w.toNat / 256 ^ (31 - j))

/-- Overwriting bytes at an offset. -/
def overwrite (m : List UInt8) (o : Nat) (bs : List UInt8) : List UInt8 := m.take o ++ bs ++ m.drop (o + bs.length)

/-- The memory after the `k`-th executed instruction, at index `i`, with this opcode and operands (top first):
`wr` says what the instructions other than MSTORE and MSTORE8 write. -/
def memAfter (wr : Nat → Nat → List Word → List UInt8 → List UInt8) (k i o : Nat) (args : List Word) (m : List UInt8) :
    List UInt8 :=
  let m' := expand m (growAll m.length (memRanges o args))
  if o = 0x52 then overwrite m' (args[0]?.getD 0).toNat (beBytes (args[1]?.getD 0))
  else if o = 0x53 then overwrite m' (args[0]?.getD 0).toNat [UInt8.ofNat (args[1]?.getD 0).toNat]
  else if o = 0x51 ∨ ∀ r ∈ memRanges o args, r.2 = 0 then m'
  else wr k i args m'

/-- What an instruction reads from memory onto the stack: MLOAD the word at its operand, MSIZE the size. -/
def memAnswer (o : Nat) (args : List Word) (m : List UInt8) : Option Word :=
  if o = 0x51 then
    some (beWord (((expand m (growAll m.length (memRanges o args))).drop (args[0]?.getD 0).toNat).take 32))
  else if o = 0x59 then some (BitVec.ofNat 256 m.length)
  else none

/-- The memory an instruction touches ends below `2^63`; more cannot be paid for, see C23. -/
def Affordable (o : Nat) (args : List Word) : Prop := ∀ r ∈ memRanges o args, r.2 ≠ 0 → r.1 + r.2 < 2 ^ 63

/-- Executions from the first instruction with an empty stack and an empty memory, whose every position satisfies
`ok`: after `k` instructions at `i` with stack `c` and memory `m`; `ld` are the words read with the number of the
instruction that read them, `tr` the executed instructions with their operands (both latest first). -/
inductive MemRun (code : Code) (insts : List InstData) (wr : Nat → Nat → List Word → List UInt8 → List UInt8)
    (ok : Nat → List Word → Prop) :
    Nat → Nat → List Word → List UInt8 → List (Nat × Word) → List (Nat × List Word) → Prop
  | start : ok 0 [] → MemRun code insts wr ok 0 0 [] [] [] []
  | step {k i i' : Nat} {c c' : List Word} {m : List UInt8} {ld : List (Nat × Word)} {tr : List (Nat × List Word)}
      {d : InstData} :
      MemRun code insts wr ok k i c m ld tr → insts[i]? = some d → Step code insts i c i' c' →
      Affordable d.opcode.toNat (c.take d.stackIo.1) →
      (∀ w, memAnswer d.opcode.toNat (c.take d.stackIo.1) m = some w → c'.head? = some w) → ok i' c' →
      MemRun code insts wr ok (k + 1) i' c' (memAfter wr k i d.opcode.toNat (c.take d.stackIo.1) m)
        ((memAnswer d.opcode.toNat (c.take d.stackIo.1) m).toList.map (fun w => (k, w)) ++ ld)
        ((i, c.take d.stackIo.1) :: tr)

/-- What instructions write does not change the size of the memory. -/
def KeepsSize (wr : Nat → Nat → List Word → List UInt8 → List UInt8) : Prop :=
  ∀ k i args m, (wr k i args m).length = m.length

end Verif.Spec
