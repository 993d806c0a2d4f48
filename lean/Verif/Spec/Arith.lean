import Verif.Model.Opcode
/-!
# Specification of EVM arithmetic

Written from the Yellow Paper, appendix H, on unbounded integers: a 256-bit word is its natural
number, "mod 2^256" happens only when a result is put back into a word. Independent of the model.
-/

namespace Verif.Spec

/-- The word congruent to a natural number modulo 2^256. -/
def word (n : Nat) : Word := BitVec.ofNat 256 n

/-- The word congruent to an integer modulo 2^256. -/
def iword (n : Int) : Word := BitVec.ofInt 256 n

/-- Two's complement reading of a word. -/
def sgn (x : Word) : Int :=
  if x.toNat < 2 ^ 255 then (x.toNat : Int) else (x.toNat : Int) - 2 ^ 256

/-- 1 or 0. -/
def bool (b : Prop) [Decidable b] : Word := if b then 1 else 0

/-- Unsigned division, 0 for a zero divisor. -/
def div (a b : Word) : Word := if b.toNat = 0 then 0 else word (a.toNat / b.toNat)

/-- Unsigned remainder, 0 for a zero divisor. -/
def mod (a b : Word) : Word := if b.toNat = 0 then 0 else word (a.toNat % b.toNat)

/-- Signed division truncating toward zero, 0 for a zero divisor. -/
def sdiv (a b : Word) : Word := if sgn b = 0 then 0 else iword ((sgn a).tdiv (sgn b))

/-- Signed remainder with the sign of the dividend, 0 for a zero divisor. -/
def smod (a b : Word) : Word := if sgn b = 0 then 0 else iword ((sgn a).tmod (sgn b))

/-- `(a + b) mod n` with an unbounded sum, 0 for `n = 0`. -/
def addmod (a b n : Word) : Word :=
  if n.toNat = 0 then 0 else word ((a.toNat + b.toNat) % n.toNat)

/-- `(a * b) mod n` with an unbounded product, 0 for `n = 0`. -/
def mulmod (a b n : Word) : Word :=
  if n.toNat = 0 then 0 else word ((a.toNat * b.toNat) % n.toNat)

/-- `a ^ b mod 2^256`. -/
def exp (a b : Word) : Word := word (a.toNat ^ b.toNat)

/-- Read the low `k + 1` bytes of `x` as a signed integer (`k < 31`; otherwise `x` unchanged). -/
def signextend (k x : Word) : Word :=
  if k.toNat < 31 then iword (Int.bmod (x.toNat : Int) (2 ^ (8 * (k.toNat + 1)))) else x

/-- Byte `i` of `x`, counted from the most significant one; 0 for `i ≥ 32`. -/
def byte (i x : Word) : Word :=
  if i.toNat < 32 then word (x.toNat / 256 ^ (31 - i.toNat) % 256) else 0

/-- `x * 2^s mod 2^256` (this is 0 for `s ≥ 256`). -/
def shl (s x : Word) : Word := word (x.toNat * 2 ^ s.toNat)

/-- `⌊x / 2^s⌋` (this is 0 for `s ≥ 256`). -/
def shr (s x : Word) : Word := word (x.toNat / 2 ^ s.toNat)

/-- `⌊x / 2^s⌋` for the signed reading of `x` (floor division, so -1 or 0 for `s ≥ 256`). -/
def sar (s x : Word) : Word := iword (Int.fdiv (sgn x) (2 ^ s.toNat))

/-- Number of leading zero bits: 256 minus the position after the highest set bit. -/
def clz (x : Word) : Word :=
  if x.toNat = 0 then word 256 else word (255 - Nat.log2 x.toNat)

/-- Result of the value-only opcodes; `args` are the popped words, top of stack first. `codeLen` and
`pc` are the results of CODESIZE and PC. -/
def evalOp (codeLen pc : Nat) (opcode : Nat) (args : List Word) : Option Word :=
  match args with
  | [] =>
    if opcode = 0x38 then some (word codeLen)
    else if opcode = 0x58 then some (word pc)
    else none
  | [a] =>
    if opcode = 0x15 then some (bool (a.toNat = 0))
    else if opcode = 0x19 then some (word (2 ^ 256 - 1 - a.toNat))
    else if opcode = 0x1e then some (clz a)
    else none
  | [a, b] =>
    if opcode = 0x01 then some (word (a.toNat + b.toNat))
    else if opcode = 0x02 then some (word (a.toNat * b.toNat))
    else if opcode = 0x03 then some (iword ((a.toNat : Int) - b.toNat))
    else if opcode = 0x04 then some (div a b)
    else if opcode = 0x05 then some (sdiv a b)
    else if opcode = 0x06 then some (mod a b)
    else if opcode = 0x07 then some (smod a b)
    else if opcode = 0x0a then some (exp a b)
    else if opcode = 0x0b then some (signextend a b)
    else if opcode = 0x10 then some (bool (a.toNat < b.toNat))
    else if opcode = 0x11 then some (bool (b.toNat < a.toNat))
    else if opcode = 0x12 then some (bool (sgn a < sgn b))
    else if opcode = 0x13 then some (bool (sgn b < sgn a))
    else if opcode = 0x14 then some (bool (a = b))
    else if opcode = 0x16 then some (word (a.toNat &&& b.toNat))
    else if opcode = 0x17 then some (word (a.toNat ||| b.toNat))
    else if opcode = 0x18 then some (word (a.toNat ^^^ b.toNat))
    else if opcode = 0x1a then some (byte a b)
    else if opcode = 0x1b then some (shl a b)
    else if opcode = 0x1c then some (shr a b)
    else if opcode = 0x1d then some (sar a b)
    else none
  | [a, b, n] =>
    if opcode = 0x08 then some (addmod a b n)
    else if opcode = 0x09 then some (mulmod a b n)
    else none
  | _ => none

/-- Every operand claimed constant has that value at run time. -/
def ConstsAgree : List (Option Word) → List Word → Prop
  | [], [] => True
  | c :: cs, a :: as => (∀ w, c = some w → w = a) ∧ ConstsAgree cs as
  | _, _ => False

end Verif.Spec
