import Verif.Model.Asm
import Verif.Spec.Code
/-!
# Specification: assembled code

What a list of assembly items means, in terms of the bytes emitted for each of them.
-/

namespace Verif.Asm

/-- Big-endian value of a byte string. -/
def Spec.beValue (bs : List UInt8) : Nat := bs.foldl (fun acc b => acc * 256 + b.toNat) 0

/-- Number of bytes emitted before item `j`. -/
def Spec.offset (chunks : List (List UInt8)) (j : Nat) : Nat := ((chunks.take j).flatten).length

/-- `name` is last defined at byte offset `p`. -/
def Spec.LabelAt (items : List Item) (chunks : List (List UInt8)) (name : String) (p : Nat) : Prop :=
  ∃ j : Nat, items[j]? = some (.label name) ∧ (∀ k : Nat, j < k → items[k]? ≠ some (.label name)) ∧
    p = Spec.offset chunks j

/-- The value of an immediate. -/
def Spec.ImmVal (items : List Item) (chunks : List (List UInt8)) (imm : Imm) (v : Nat) : Prop :=
  match imm with
  | .number n => v = n.toNat
  | .label name => Spec.LabelAt items chunks name v

/-- The bytes `c` are right for the item. -/
def Spec.ItemOk (items : List Item) (chunks : List (List UInt8)) (it : Item) (c : List UInt8) : Prop :=
  match it with
  | .label _ => c = []
  | .inst i =>
    match i.kind with
    | .none => c = [i.opcode]
    | .fixed size => ∃ imm v bs, i.imm = some imm ∧ Spec.ImmVal items chunks imm v ∧
        c = i.opcode :: bs ∧ bs.length = size ∧ Spec.beValue bs = v
    | .auto => ∃ imm v bs, i.imm = some imm ∧ Spec.ImmVal items chunks imm v ∧
        c = UInt8.ofNat (0x5f + bs.length) :: bs ∧ bs.length ≤ 32 ∧ Spec.beValue bs = v ∧
        (bs = [] ∨ 256 ^ (bs.length - 1) ≤ v)

/-- `chunks` are the bytes of `items`, one string per item. -/
def Spec.Assembles (items : List Item) (chunks : List (List UInt8)) : Prop :=
  chunks.length = items.length ∧
  ∀ (i : Nat) (it : Item) (c : List UInt8), items[i]? = some it → chunks[i]? = some c →
    Spec.ItemOk items chunks it c

/-- Number of instructions (not labels) among the first `n` items. -/
def Spec.instsBefore (items : List Item) (n : Nat) : Nat :=
  ((items.take n).filter fun it => match it with | .inst _ => true | .label _ => false).length

/-- An instruction of fork `spec` as the assembler's parser produces it: no immediate, a PUSHn with `n`
bytes, an EIP-8024 instruction with a one-byte index other than 0x5b, or an automatic push. -/
def Spec.Written (spec : SpecId) (i : Inst) : Prop :=
  match i.kind with
  | .none => ¬ (0x60 ≤ i.opcode.toNat ∧ i.opcode.toNat ≤ 0x7f) ∧
      ¬ (0xe6 ≤ i.opcode.toNat ∧ i.opcode.toNat ≤ 0xe8)
  | .fixed size =>
    (0x60 ≤ i.opcode.toNat ∧ i.opcode.toNat ≤ 0x7f ∧ size = i.opcode.toNat - 0x5f) ∨
    (0xe6 ≤ i.opcode.toNat ∧ i.opcode.toNat ≤ 0xe8 ∧ SpecId.AMSTERDAM ≤ spec ∧ size = 1 ∧
      ∃ n : Word, i.imm = some (.number n) ∧ n ≠ 0x5b)
  | .auto => True

/-- `o` is the opcode written; an automatic push may be any of PUSH0..PUSH32. -/
def Spec.OpcodeOk (i : Inst) (o : UInt8) : Prop :=
  match i.kind with
  | .auto => 0x5f ≤ o.toNat ∧ o.toNat ≤ 0x7f
  | _ => o = i.opcode

end Verif.Asm
