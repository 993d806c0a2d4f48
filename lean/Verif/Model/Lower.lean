import Verif.Model.ConstFold
/-!
# Lowering of arithmetic opcodes

Models the value expressions emitted by `translate_inst`
(`crates/revmc-codegen/src/compiler/translate/mod.rs`) and by
`crates/revmc-codegen/src/compiler/translate/peephole.rs`, and the arithmetic builtins of
`crates/revmc-builtins/src/lib.rs`. The stack traffic around them (pop/push) is modelled in `Model/VStack.lean`.
-/

namespace Verif
open U256

/-- An SSA value of LLVM type `i256`; `none` is poison (or undefined behaviour). The builder methods
used here emit plain instructions without `nuw`/`nsw`/`exact` flags
(`crates/revmc-llvm/src/lib.rs`:1523-1766), so poison arises only from over-wide shifts and bad
divisions. -/
abbrev IRVal := Option Word

namespace IR
/-- `iconst_256` / `iconst` (revmc-llvm lib.rs:1420-1440). -/
def const (w : Word) : IRVal := some w
/-- A strict two-operand instruction. -/
def bin (f : Word → Word → Word) (a b : IRVal) : IRVal :=
  match a, b with
  | some x, some y => some (f x y)
  | _, _ => none
/-- `iadd` (revmc-llvm lib.rs:1611). -/
def iadd := bin (· + ·)
/-- `isub` (lib.rs:1615). -/
def isub := bin (· - ·)
/-- `imul`, `imul_imm` (lib.rs:1619, 1661). -/
def imul := bin (· * ·)
/-- `bitand`, `bitand_imm`. -/
def bitand := bin (· &&& ·)
/-- `bitor`. -/
def bitor := bin (· ||| ·)
/-- `bitxor`. -/
def bitxor := bin (· ^^^ ·)
/-- `bitnot`. -/
def bitnot (a : IRVal) : IRVal := a.map (~~~ ·)
/-- `udiv` (lib.rs:1623): division by zero is undefined. -/
def udiv (a b : IRVal) : IRVal :=
  match a, b with
  | some x, some y => if y = 0 then none else some (x / y)
  | _, _ => none
/-- `urem` (lib.rs:1637). -/
def urem (a b : IRVal) : IRVal :=
  match a, b with
  | some x, some y => if y = 0 then none else some (x % y)
  | _, _ => none
/-- `ishl` (lib.rs:1747): LLVM `shl`, poison if the amount is not below the width. -/
def ishl (a s : IRVal) : IRVal :=
  match a, s with
  | some x, some n => if n.toNat < 256 then some (x <<< n.toNat) else none
  | _, _ => none
/-- `ushr` (lib.rs:1751): LLVM `lshr`. -/
def ushr (a s : IRVal) : IRVal :=
  match a, s with
  | some x, some n => if n.toNat < 256 then some (x >>> n.toNat) else none
  | _, _ => none
/-- `sshr` (lib.rs:1758): LLVM `ashr`. -/
def sshr (a s : IRVal) : IRVal :=
  match a, s with
  | some x, some n => if n.toNat < 256 then some (x.sshiftRight n.toNat) else none
  | _, _ => none
/-- `icmp` / `icmp_imm` (lib.rs:1523-1533) with the given predicate. -/
def icmp (p : Word → Word → Bool) (a b : IRVal) : Option Bool :=
  match a, b with
  | some x, some y => some (p x y)
  | _, _ => none
/-- `select` (lib.rs:1602): poison in the arm that is not chosen is discarded. -/
def select (c : Option Bool) (a b : IRVal) : IRVal :=
  match c with
  | some true => a
  | some false => b
  | none => none
/-- `zext` of an `i1` to the word type (lib.rs:1765). -/
def zext (c : Option Bool) : IRVal := c.map ofBool
/-- `clz` (lib.rs:1723-1730): `llvm.ctlz` with `is_zero_poison = false`. -/
def clz (a : IRVal) : IRVal := a.map BitVec.clz
/-- `IntCC::UnsignedLessThan` (lib.rs `convert_intcc`). -/
def ult (x y : Word) : Bool := decide (x.toNat < y.toNat)
/-- `IntCC::UnsignedGreaterThan`. -/
def ugt (x y : Word) : Bool := decide (y.toNat < x.toNat)
/-- `IntCC::SignedLessThan`. -/
def slt (x y : Word) : Bool := decide (x.toInt < y.toInt)
/-- `IntCC::SignedGreaterThan`. -/
def sgt (x y : Word) : Bool := decide (y.toInt < x.toInt)
/-- `IntCC::Equal`. -/
def ieq (x y : Word) : Bool := decide (x = y)
end IR
open IR

/-- The shift macro `binop!(@shift ...)` (translate/mod.rs:675-683). -/
def lowerShift (sh : IRVal → IRVal → IRVal) (shift value dflt : IRVal) : IRVal :=
  let r := sh value shift
  let overflow := icmp ugt shift (IR.const 255)
  select overflow dflt r

/-- `op::SIGNEXTEND` (translate/mod.rs:749-766). -/
def lowerSignextend (ext x : IRVal) : IRVal :=
  let mightDoSomething := icmp ult ext (IR.const 31)
  let shift := imul ext (IR.const 8)
  let shift := isub (IR.const 248) shift
  let shifted := ishl x shift
  let sext := sshr shifted shift
  select mightDoSomething sext x

/-- `op::BYTE` (translate/mod.rs:793-812). -/
def lowerByte (index value : IRVal) : IRVal :=
  let inRange := icmp ult index (IR.const 32)
  let shift := imul index (IR.const 8)
  let shift := isub (IR.const 248) shift
  let shifted := ushr value shift
  let byte := bitand shifted (IR.const 0xff)
  select inRange byte (IR.const 0)

/-- The opcodes that `translate_inst` lowers to inline instructions (translate/mod.rs:715-821);
`args` are the popped values, top of stack first. `none`: not lowered inline by this match. -/
def lowerInline (opcode : UInt8) (args : List IRVal) : Option IRVal :=
  match args with
  | [a] =>
    if opcode == op.ISZERO then some (zext (icmp ieq a (IR.const 0)))
    else if opcode == op.NOT then some (bitnot a)
    else if opcode == op.CLZ then some (IR.clz a)
    else none
  | [a, b] =>
    if opcode == op.ADD then some (iadd a b)
    else if opcode == op.MUL then some (imul a b)
    else if opcode == op.SUB then some (isub a b)
    else if opcode == op.SIGNEXTEND then some (lowerSignextend a b)
    else if opcode == op.LT then some (zext (icmp ult a b))
    else if opcode == op.GT then some (zext (icmp ugt a b))
    else if opcode == op.SLT then some (zext (icmp slt a b))
    else if opcode == op.SGT then some (zext (icmp sgt a b))
    else if opcode == op.EQ then some (zext (icmp ieq a b))
    else if opcode == op.AND then some (bitand a b)
    else if opcode == op.OR then some (bitor a b)
    else if opcode == op.XOR then some (bitxor a b)
    else if opcode == op.BYTE then some (lowerByte a b)
    else if opcode == op.SHL then some (lowerShift ishl a b (IR.const 0))
    else if opcode == op.SHR then some (lowerShift ushr a b (IR.const 0))
    else if opcode == op.SAR then
      some (lowerShift sshr a b
        (select (icmp slt b (IR.const 0)) (IR.const (BitVec.allOnes 256)) (IR.const 0)))
    else none
  | _ => none

/-- The arithmetic builtins called for the remaining opcodes (revmc-builtins lib.rs:125-170). The
gas charge of `__revmc_builtin_exp` is not part of the value. -/
def builtinArith (opcode : UInt8) (args : List Word) : Option Word :=
  match args with
  | [a, b] =>
    if opcode == op.DIV then some (if b = 0 then 0 else a / b)
    else if opcode == op.SDIV then some (i256Div a b)
    else if opcode == op.MOD then some (if b = 0 then 0 else a % b)
    else if opcode == op.SMOD then some (i256Mod a b)
    else if opcode == op.EXP then some (pow a b)
    else none
  | [a, b, c] =>
    if opcode == op.ADDMOD then some (addMod a b c)
    else if opcode == op.MULMOD then some (mulMod a b c)
    else none
  | _ => none

/-! ## Peephole rewrites -/

/-- What a peephole emits: the value pushed, and whether `pay_exp_dynamic_gas` was emitted before
(peephole.rs:250-253). -/
structure Peep where
  value : IRVal
  payExpGas : Bool := false

/-- `fold_const` (translate/mod.rs, used throughout peephole.rs): drop the inputs, push a constant. -/
def foldConst (w : Word) : Option Peep := some { value := IR.const w }

/-- `peephole_div` (peephole.rs:48-70). `ca`/`cb` are the constants known for the operands. -/
def peepholeDiv (ca cb : Option Word) (a : IRVal) : Option Peep :=
  if cb = some 0 then foldConst 0
  else if cb = some 1 then some { value := a }
  else match cb with
    | some d =>
      if isPowerOfTwo d then some { value := udiv a (IR.const d) }
      else if ca = some 0 then foldConst 0 else none
    | none => if ca = some 0 then foldConst 0 else none

/-- `peephole_sdiv` (peephole.rs:76-106). -/
def peepholeSdiv (ca cb : Option Word) (a : IRVal) : Option Peep :=
  if cb = some 0 then foldConst 0
  else if cb = some 1 then some { value := a }
  else if cb = some (BitVec.allOnes 256) then some { value := isub (IR.const 0) a }
  else if cb = some intMin then some { value := zext (icmp ieq a (IR.const intMin)) }
  else if ca = some 0 then foldConst 0 else none

/-- `peephole_mod` (peephole.rs:111-128). -/
def peepholeMod (ca cb : Option Word) (a : IRVal) : Option Peep :=
  if cb = some 0 ∨ cb = some 1 then foldConst 0
  else match cb with
    | some m =>
      if isPowerOfTwo m then some { value := urem a (IR.const m) }
      else if ca = some 0 then foldConst 0 else none
    | none => if ca = some 0 then foldConst 0 else none

/-- `peephole_smod` (peephole.rs:131-141). -/
def peepholeSmod (ca cb : Option Word) : Option Peep :=
  if cb = some 0 ∨ cb = some 1 ∨ cb = some (BitVec.allOnes 256) then foldConst 0
  else if ca = some 0 then foldConst 0 else none

/-- `peephole_addmod` (peephole.rs:144-156). -/
def peepholeAddmod (ca cb cn : Option Word) : Option Peep :=
  if cn = some 0 ∨ cn = some 1 then foldConst 0
  else if ca = some 0 ∧ cb = some 0 then foldConst 0 else none

/-- `peephole_mulmod` (peephole.rs:159-174). -/
def peepholeMulmod (ca cb cn : Option Word) : Option Peep :=
  if cn = some 0 ∨ cn = some 1 then foldConst 0
  else if ca = some 0 ∨ cb = some 0 then foldConst 0 else none

/-- `Uint::trailing_zeros` (ruint; peephole.rs:227), by scanning the low bits. -/
def trailingZeros (n : Nat) : Nat → Nat
  | 0 => 0
  | fuel + 1 => if n % 2 = 1 then 0 else 1 + trailingZeros (n / 2) fuel

/-- `peephole_exp` (peephole.rs:182-248). `256_u16.div_ceil(k)` is `(256 + k - 1) / k`; the
`icmp_imm` and `imul_imm` immediates are non-negative `i64` values, hence exact. -/
def peepholeExp (ca cb : Option Word) (a b : IRVal) : Option Peep :=
  match cb with
  | some e =>
    if e = 0 then foldConst 1
    else if e = 1 then some { value := a }
    else if e = 2 then some { value := imul a a }
    else none
  | none =>
    match ca with
    | some base =>
      if base = 0 then
        some { value := select (icmp ieq b (IR.const 0)) (IR.const 1) (IR.const 0), payExpGas := true }
      else if base = 1 then some { value := IR.const 1, payExpGas := true }
      else if base = BitVec.allOnes 256 then
        let isOdd := bitand b (IR.const 1)
        let isEven := icmp ieq isOdd (IR.const 0)
        some { value := select isEven (IR.const 1) (IR.const (BitVec.allOnes 256)), payExpGas := true }
      else if isPowerOfTwo base then
        let k := trailingZeros base.toNat 256
        let threshold := (256 + k - 1) / k
        let inRange := icmp ult b (IR.const (BitVec.ofNat 256 threshold))
        let shift := if k = 1 then b else imul b (IR.const (BitVec.ofNat 256 k))
        let shifted := ishl (IR.const 1) shift
        some { value := select inRange shifted (IR.const 0), payExpGas := true }
      else none
    | none => none

/-- `peephole_signextend` (peephole.rs:256-267). -/
def peepholeSignextend (ca : Option Word) (b : IRVal) : Option Peep :=
  match ca with
  | some e => if 31 ≤ e.toNat then some { value := b } else none
  | none => none

/-- `peephole_byte` (peephole.rs:270-278). -/
def peepholeByte (ca : Option Word) : Option Peep :=
  match ca with
  | some i => if 32 ≤ i.toNat then foldConst 0 else none
  | none => none

/-- The arithmetic part of `try_peephole` (peephole.rs:22-40). `consts` are the operands known at
compile time, `args` the run-time operands, both top of stack first. -/
def tryPeephole (opcode : UInt8) (consts : List (Option Word)) (args : List IRVal) : Option Peep :=
  match consts, args with
  | [ca, cb], [a, b] =>
    if opcode == op.DIV then peepholeDiv ca cb a
    else if opcode == op.SDIV then peepholeSdiv ca cb a
    else if opcode == op.MOD then peepholeMod ca cb a
    else if opcode == op.SMOD then peepholeSmod ca cb
    else if opcode == op.EXP then peepholeExp ca cb a b
    else if opcode == op.SIGNEXTEND then peepholeSignextend ca b
    else if opcode == op.BYTE then peepholeByte ca
    else none
  | [ca, cb, cn], [_, _, _] =>
    if opcode == op.ADDMOD then peepholeAddmod ca cb cn
    else if opcode == op.MULMOD then peepholeMulmod ca cb cn
    else none
  | _, _ => none

end Verif
