/-!
# Model: integer constants and operations of the LLVM builder

`crates/revmc-llvm/src/lib.rs:1417-1437, 1523-1533, 1571-1586, 1651-1697, 1732-1745, 2110-2123`. LLVM's instructions on `iN` are
those on bit vectors; `LLVMConstInt` and `LLVMConstIntOfString` are transcribed.
-/

namespace Verif.Bld

/-- `LLVMConstInt` (called through `const_int`, lib.rs:1418-1432): 64 bits, extended with or without sign or cut. -/
def constInt (w : Nat) (v : BitVec 64) (signed : Bool) : BitVec w := if signed then v.signExtend w else v.setWidth w

/-- `bool_const` (lib.rs:1417-1419). -/
def boolConst (b : Bool) : BitVec 1 := constInt 1 (if b then 1 else 0) false

/-- `iconst` (lib.rs:1421-1423); an `i64` is its 64 bits. -/
def iconst (w : Nat) (v : BitVec 64) : BitVec w := constInt w v (v.slt 0)

/-- `uconst` (lib.rs:1425-1427). -/
def uconst (w : Nat) (v : BitVec 64) : BitVec w := constInt w v false

/-- A digit of `{:x}` (lib.rs:1436). -/
def hexDigit (d : Nat) : Char := if d < 10 then Char.ofNat (48 + d) else Char.ofNat (87 + d)

/-- `write!("{value:x}")` (lib.rs:1436): no prefix, no leading zeros. -/
def hexText (n : Nat) : List Char := if n < 16 then [hexDigit n] else hexText (n / 16) ++ [hexDigit (n % 16)]

/-- `getDigit` of LLVM's `APInt` for radix 16. -/
def digitVal (c : Char) : Option Nat :=
  if 48 ≤ c.toNat ∧ c.toNat ≤ 57 then some (c.toNat - 48)
  else if 97 ≤ c.toNat ∧ c.toNat ≤ 102 then some (c.toNat - 87)
  else if 65 ≤ c.toNat ∧ c.toNat ≤ 70 then some (c.toNat - 55)
  else none

/-- `const_int_from_string` (lib.rs:1437): inkwell refuses text that is empty or has other characters; LLVM shifts in
digit by digit. -/
def constOfHex (w : Nat) (s : List Char) : Option (BitVec w) :=
  if s = [] then none
  else s.foldl (fun acc c => acc.bind fun a => (digitVal c).map fun d => (a <<< 4) + BitVec.ofNat w d) (some 0)

/-- `iconst_256` (lib.rs:1429-1438); `none` is a panic. -/
def iconst256 (v : BitVec 256) : Option (BitVec 256) :=
  if v.toNat < 2 ^ 64 then some (constInt 256 (v.setWidth 64) false) else constOfHex 256 (hexText v.toNat)

/-- `IntCC` (revmc-backend/src/traits.rs:93-115). -/
inductive IntCC
  | eq | ne | slt | sge | sgt | sle | ult | uge | ugt | ule
deriving DecidableEq, Repr

/-- LLVM's `IntPredicate`. -/
inductive IntPredicate
  | EQ | NE | UGT | UGE | ULT | ULE | SGT | SGE | SLT | SLE
deriving DecidableEq, Repr

/-- `convert_intcc` (lib.rs:2110-2123). -/
def convertIntcc : IntCC → IntPredicate
  | .eq => .EQ
  | .ne => .NE
  | .slt => .SLT
  | .sge => .SGE
  | .sgt => .SGT
  | .sle => .SLE
  | .ult => .ULT
  | .uge => .UGE
  | .ugt => .UGT
  | .ule => .ULE

/-- LLVM's `icmp`. -/
def IntPredicate.eval {w : Nat} (p : IntPredicate) (a b : BitVec w) : Bool :=
  match p with
  | .EQ => a == b
  | .NE => a != b
  | .UGT => b.ult a
  | .UGE => b.ule a
  | .ULT => a.ult b
  | .ULE => a.ule b
  | .SGT => b.slt a
  | .SGE => b.sle a
  | .SLT => a.slt b
  | .SLE => a.sle b

/-- `icmp` (lib.rs:1523-1528). -/
def icmp {w : Nat} (c : IntCC) (a b : BitVec w) : Bool := (convertIntcc c).eval a b

/-- `icmp_imm` (lib.rs:1530-1533). -/
def icmpImm {w : Nat} (c : IntCC) (a : BitVec w) (k : BitVec 64) : Bool := icmp c a (iconst w k)

/-- `iadd_imm` (lib.rs:1651-1654). -/
def iaddImm {w : Nat} (a : BitVec w) (k : BitVec 64) : BitVec w := a + iconst w k
/-- `isub_imm` (lib.rs:1656-1659). -/
def isubImm {w : Nat} (a : BitVec w) (k : BitVec 64) : BitVec w := a - iconst w k
/-- `imul_imm` (lib.rs:1661-1664). -/
def imulImm {w : Nat} (a : BitVec w) (k : BitVec 64) : BitVec w := a * iconst w k

/-- `bitor_imm` (lib.rs:1732-1735). -/
def bitorImm {w : Nat} (a : BitVec w) (k : BitVec 64) : BitVec w := a ||| iconst w k
/-- `bitand_imm` (lib.rs:1737-1740). -/
def bitandImm {w : Nat} (a : BitVec w) (k : BitVec 64) : BitVec w := a &&& iconst w k
/-- `bitxor_imm` (lib.rs:1742-1745). -/
def bitxorImm {w : Nat} (a : BitVec w) (k : BitVec 64) : BitVec w := a ^^^ iconst w k

/-- `uadd_overflow` (lib.rs:1669-1673). -/
def uaddOverflow {w : Nat} (a b : BitVec w) : BitVec w × Bool := (a + b, icmp .ult (a + b) b)

/-- `usub_overflow` (lib.rs:1675-1679). -/
def usubOverflow {w : Nat} (a b : BitVec w) : BitVec w × Bool := (a - b, icmp .ult a b)

/-- `switch` (lib.rs:1571-1586): LLVM goes to the target whose constant, of the type of the index, equals it. -/
def switchTo {w : Nat} {L : Type} (index : BitVec w) (dflt : L) : List (BitVec 64 × L) → L
  | [] => dflt
  | (k, l) :: ts => if constInt w k false = index then l else switchTo index dflt ts

end Verif.Bld
