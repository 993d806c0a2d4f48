import Verif.Model.U256
import Verif.Model.Parse
/-!
# Constant folding (`crates/revmc-codegen/src/bytecode/passes/const_fold.rs`)
-/

namespace Verif
open U256

/-- `AbsValue` (block_analysis.rs:72-82). Simplification: constants are the words themselves rather
than 32-bit handles (C06 shows handles and values correspond one to one), and a set is stored in the
value rather than behind an interned index. -/
inductive AbsValue
  | const (v : Word)
  | constSet (s : List Word)
  | top
deriving DecidableEq, Repr

/-- `AbsValue::as_const` (block_analysis.rs:86-91). -/
def AbsValue.asConst : AbsValue → Option Word
  | .const v => some v
  | _ => none

/-- `(256 - val.leading_zeros()).div_ceil(8)` (const_fold.rs:41). -/
def byteSize (v : Word) : Nat := (256 - v.clz.toNat + 7) / 8

/-- `const_fold_gas` (const_fold.rs:19-50). `inputs` is the slice of the popped operands with the
top of the stack last. -/
def constFoldGas (opcode : UInt8) (inputs : List AbsValue) : Option Nat :=
  if opcode == op.CODESIZE || opcode == op.PC then some 2
  else if opcode == op.ISZERO || opcode == op.NOT then some 3
  else if opcode == op.CLZ then some 3
  else if opcode == op.ADD || opcode == op.SUB then some 3
  else if opcode == op.MUL || opcode == op.DIV || opcode == op.SDIV || opcode == op.MOD ||
    opcode == op.SMOD then some 5
  else if opcode == op.ADDMOD || opcode == op.MULMOD then some 8
  else if opcode == op.SIGNEXTEND then some 5
  else if opcode == op.LT || opcode == op.GT || opcode == op.SLT || opcode == op.SGT ||
    opcode == op.EQ then some 3
  else if opcode == op.AND || opcode == op.OR || opcode == op.XOR then some 3
  else if opcode == op.BYTE || opcode == op.SHL || opcode == op.SHR || opcode == op.SAR then some 3
  else if opcode == op.EXP then
    match inputs with
    | .const v :: _ => some (10 + 50 * byteSize v)
    | _ => none
  else none

/-- SIGNEXTEND in `try_const_fold` (const_fold.rs:129-139). -/
def foldSignextend (a b : Word) : Word :=
  if a < 31#256 then
    let ext := a.toNat % 2 ^ 64
    let bitIndex := 8 * ext + 7
    let mask := (1#256 <<< bitIndex) - 1
    if b.getLsbD bitIndex then b ||| ~~~mask else b &&& mask
  else b

/-- BYTE in `try_const_fold` (const_fold.rs:148-151). `b.byte(k)` is byte `k` from the least
significant end. -/
def foldByte (a b : Word) : Word :=
  let i := saturatingToUsize a
  if i < 32 then (b >>> (8 * (31 - i))) &&& 0xff else 0

/-- SHL (const_fold.rs:152-155). -/
def foldShl (a b : Word) : Word :=
  let s := saturatingToUsize a
  if s < 256 then b <<< s else 0

/-- SHR (const_fold.rs:156-159). -/
def foldShr (a b : Word) : Word :=
  let s := saturatingToUsize a
  if s < 256 then b >>> s else 0

/-- SAR (const_fold.rs:160-169). -/
def foldSar (a b : Word) : Word :=
  let s := saturatingToUsize a
  if s < 256 then b.sshiftRight s
  else if b.getLsbD 255 then BitVec.allOnes 256 else 0

/-- The 1 → 1 group (const_fold.rs:68-79). -/
def fold1 (opcode : UInt8) (a : Word) : Option Word :=
  if opcode == op.ISZERO then some (ofBool (a == 0))
  else if opcode == op.NOT then some (~~~a)
  else if opcode == op.CLZ then some a.clz
  else none

/-- The 2 → 1 group (const_fold.rs:82-172). -/
def fold2 (opcode : UInt8) (a b : Word) : Option Word :=
  if opcode == op.ADD then some (a + b)
  else if opcode == op.MUL then some (a * b)
  else if opcode == op.SUB then some (a - b)
  else if opcode == op.DIV then some (if b ≠ 0 then a / b else 0)
  else if opcode == op.SDIV then some (i256Div a b)
  else if opcode == op.MOD then some (if b ≠ 0 then a % b else 0)
  else if opcode == op.SMOD then some (i256Mod a b)
  else if opcode == op.EXP then some (pow a b)
  else if opcode == op.SIGNEXTEND then some (foldSignextend a b)
  else if opcode == op.LT then some (ofBool (decide (a < b)))
  else if opcode == op.GT then some (ofBool (decide (a > b)))
  else if opcode == op.SLT then some (ofBool (i256Cmp a b == .lt))
  else if opcode == op.SGT then some (ofBool (i256Cmp a b == .gt))
  else if opcode == op.EQ then some (ofBool (a == b))
  else if opcode == op.AND then some (a &&& b)
  else if opcode == op.OR then some (a ||| b)
  else if opcode == op.XOR then some (a ^^^ b)
  else if opcode == op.BYTE then some (foldByte a b)
  else if opcode == op.SHL then some (foldShl a b)
  else if opcode == op.SHR then some (foldShr a b)
  else if opcode == op.SAR then some (foldSar a b)
  else none

/-- The 3 → 1 group (const_fold.rs:175-186). -/
def fold3 (opcode : UInt8) (a b n : Word) : Option Word :=
  if opcode == op.ADDMOD then some (addMod a b n)
  else if opcode == op.MULMOD then some (mulMod a b n)
  else none

/-- `try_const_fold` (const_fold.rs:55-197). `inputs` has the top of the stack last. The result is
the folded word (`AbsValue::Const` in Rust). `usize` values are taken modulo 2^256 as
`U256::from`. -/
def tryConstFold (inst : InstData) (inputs : List AbsValue) (codeLen : Nat) : Option Word :=
  if inst.opcode == op.CODESIZE then some (BitVec.ofNat 256 codeLen)
  else if inst.opcode == op.PC then some (BitVec.ofNat 256 inst.data)
  else match inputs with
    | [.const a] => fold1 inst.opcode a
    | [.const b, .const a] => fold2 inst.opcode a b
    | [.const n, .const b, .const a] => fold3 inst.opcode a b n
    | _ => none

end Verif
