/-!
# Specification: hex
-/

namespace Verif.ReadCode.Spec

/-- `c` is a way to write the digit `n`. -/
def IsDigit (c : Char) (n : Nat) : Prop :=
  (n < 10 ∧ c.toNat = 48 + n) ∨ (10 ≤ n ∧ n < 16 ∧ (c.toNat = 87 + n ∨ c.toNat = 55 + n))

/-- The text is that of the digits. -/
inductive Digits : List Char → List Nat → Prop
  | nil : Digits [] []
  | cons {c n cs ns} : IsDigit c n → Digits cs ns → Digits (c :: cs) (n :: ns)

/-- The number with these digits to a base, the first being the most significant. -/
def number (base : Nat) : List Nat → Nat
  | [] => 0
  | d :: ds => d * base ^ ds.length + number base ds

/-- ASCII white space. -/
def White (c : Char) : Prop := c.toNat = 32 ∨ (9 ≤ c.toNat ∧ c.toNat ≤ 13)

/-- The text is that of the digits, after a prefix or none, between white space. -/
def Written (s : List Char) (ds : List Nat) : Prop :=
  ∃ w p cs w', (∀ c ∈ w, White c) ∧ (∀ c ∈ w', White c) ∧ (p = [] ∨ p = ['0', 'x'] ∨ p = ['0', 'X']) ∧ Digits cs ds ∧
    s = w ++ (p ++ cs ++ w')

/-- The text is the hex of the bytes, two digits each. -/
inductive Hex : List Char → List UInt8 → Prop
  | nil : Hex [] []
  | cons {c d x y cs b bs} : IsDigit c x → IsDigit d y → b.toNat = 16 * x + y → Hex cs bs → Hex (c :: d :: cs) (b :: bs)

end Verif.ReadCode.Spec
