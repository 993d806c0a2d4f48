import Verif.Model.Opcode
/-!
# 256-bit helper functions of the dependencies

`ruint` (`add_mod`, `mul_mod`, `pow`) and `revm_interpreter::instructions::i256` are called by
`crates/revmc-codegen/src/bytecode/passes/const_fold.rs` and `crates/revmc-builtins/src/lib.rs`.
Their sources are not in /repo; the definitions below follow the published algorithms and are part
of the trusted transcription.
-/

namespace Verif.U256

/-- `Sign` of revm's `i256` module (used via const_fold.rs:119,127). -/
inductive Sign | minus | zero | plus
deriving DecidableEq, Repr

/-- `i256_sign` (revm `i256` module, used via const_fold.rs:119-143). -/
def sign (x : Word) : Sign :=
  if x.getLsbD 255 then .minus else if x = 0 then .zero else .plus

/-- `two_compl` (revm `i256`): wrapping negation. -/
def twoCompl (x : Word) : Word := 0 - x

/-- `i256_sign_compl` (revm `i256`): the sign and the absolute value. -/
def signCompl (x : Word) : Sign × Word :=
  (sign x, if sign x = .minus then twoCompl x else x)

/-- `MIN_NEGATIVE_VALUE` (revm `i256`), also `INT_MIN` of peephole.rs:15. -/
def intMin : Word := 1#256 <<< 255

/-- `u256_remove_sign` (revm `i256`): clears bit 255. -/
def removeSign (x : Word) : Word := x &&& (intMin - 1)

/-- `i256_div` (revm `i256`, called at const_fold.rs:119 and revmc-builtins lib.rs:133). -/
def i256Div (first second : Word) : Word :=
  let (s2, b) := signCompl second
  if s2 = .zero then 0
  else
    let (s1, a) := signCompl first
    if s1 = .minus ∧ a = intMin ∧ b = 1 then twoCompl intMin
    else
      let d := removeSign (a / b)
      if (s1 = .minus ∧ s2 ≠ .minus) ∨ (s2 = .minus ∧ s1 ≠ .minus) then twoCompl d else d

/-- `i256_mod` (revm `i256`, called at const_fold.rs:127 and revmc-builtins lib.rs:144). -/
def i256Mod (first second : Word) : Word :=
  let (s1, a) := signCompl first
  if s1 = .zero then 0
  else
    let (s2, b) := signCompl second
    if s2 = .zero then 0
    else
      let r := removeSign (a % b)
      if s1 = .minus then twoCompl r else r

/-- Rank used by `i256_cmp` to compare signs (`Minus < Zero < Plus`). -/
def Sign.rank : Sign → Nat
  | .minus => 0 | .zero => 1 | .plus => 2

/-- `i256_cmp` (revm `i256`, called at const_fold.rs:142-143): compare signs, then unsigned values. -/
def i256Cmp (a b : Word) : Ordering :=
  if (sign a).rank < (sign b).rank then .lt
  else if (sign b).rank < (sign a).rank then .gt
  else if a < b then .lt else if b < a then .gt else .eq

/-- `Uint::pow` (ruint; const_fold.rs:128, revmc-builtins lib.rs:167): square and multiply. -/
def powLoop (result base : Word) (e : Nat) : Word :=
  if h : e = 0 then result
  else powLoop (if e % 2 = 1 then result * base else result) (base * base) (e / 2)
termination_by e
decreasing_by omega

/-- `Uint::pow`. -/
def pow (a b : Word) : Word := powLoop 1 a b.toNat

/-- `Uint::add_mod` (ruint; const_fold.rs:182): reduce both, add, subtract the modulus once on
overflow or if the sum reaches it. -/
def addMod (a b n : Word) : Word :=
  if n = 0 then 0
  else
    let x := a % n
    let y := b % n
    let r := x + y
    let overflow := decide (2 ^ 256 ≤ x.toNat + y.toNat)
    if overflow || decide (n ≤ r) then r - n else r

/-- `Uint::mul_mod` (ruint; const_fold.rs:183): double-width product, then reduce. -/
def mulMod (a b n : Word) : Word :=
  if n = 0 then 0
  else ((a.zeroExtend 512 * b.zeroExtend 512) % n.zeroExtend 512).truncate 256

/-- `Uint::is_power_of_two` (ruint; peephole.rs:59,120,225): exactly one bit set, tested as
`x != 0 && x & (x - 1) == 0`. -/
def isPowerOfTwo (x : Word) : Bool := x != 0 && x &&& (x - 1) == 0

/-- `U256::from(bool)`. -/
def ofBool (b : Bool) : Word := if b then 1 else 0

/-- `saturating_to::<usize>` on a 64-bit target. -/
def saturatingToUsize (x : Word) : Nat := min x.toNat (2 ^ 64 - 1)

end Verif.U256
