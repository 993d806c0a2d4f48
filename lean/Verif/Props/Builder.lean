import Verif.Spec.Builder
import Verif.Lemmas.Builder
/-!
# C70: constants and checked operations of the builder
-/

namespace Verif.Bld

open Spec

/-! ## Constants -/

/-- **C70.** A signed constant of any width is the given number, modulo the width. -/
theorem C70_iconst (w : Nat) (v : BitVec 64) : iconst w v = BitVec.ofInt w v.toInt := by
  unfold iconst constInt
  split
  · rfl
  · rename_i h
    have hm : v.msb = false := by
      have e : v.slt 0 = v.msb := BitVec.slt_zero_eq_msb
      rw [e] at h
      simpa using h
    rw [BitVec.toInt_eq_toNat_of_msb hm]
    apply BitVec.eq_of_toNat_eq
    rw [BitVec.toNat_setWidth, BitVec.toNat_ofInt]
    omega

/-- **C70.** A signed constant that fits is exactly the given number. -/
theorem C70_iconst_fits (w : Nat) (hw : 0 < w) (v : BitVec 64) (h1 : -(2 ^ (w - 1) : Int) ≤ v.toInt)
    (h2 : v.toInt < 2 ^ (w - 1)) : (iconst w v).toInt = v.toInt := by
  rw [C70_iconst, BitVec.toInt_ofInt]
  have e : (2 : Int) ^ w = 2 * 2 ^ (w - 1) := by
    conv => lhs; rw [show w = (w - 1) + 1 by omega, Int.pow_succ]
    omega
  apply Int.bmod_eq_of_le
  · rw [Int.natCast_pow]
    show -((2 : Int) ^ w / 2) ≤ _
    rw [e]
    omega
  · rw [Int.natCast_pow]
    show _ < ((2 : Int) ^ w + 1) / 2
    rw [e]
    omega

example : (iconst 256 (-3)).toInt = -3 := C70_iconst_fits 256 (by decide) _ (by decide) (by decide)

/-- **C70.** An unsigned constant is the given number, modulo the width. -/
theorem C70_uconst (w : Nat) (v : BitVec 64) : (uconst w v).toNat = v.toNat % 2 ^ w := by
  simp [uconst, constInt]

example : (uconst 256 (-1)).toNat = 2 ^ 64 - 1 := by decide

/-- **C70.** A truth value. -/
theorem C70_bool (b : Bool) : boolConst b = BitVec.ofBool b := by cases b <;> decide

/-- **C70.** A 256-bit constant is the given value, whichever way it is made, and never a panic. -/
theorem C70_iconst256 (v : BitVec 256) : iconst256 v = some v := by
  unfold iconst256
  split
  · rename_i h
    congr 1
    apply BitVec.eq_of_toNat_eq
    simp only [constInt, Bool.false_eq_true, if_false, BitVec.toNat_setWidth]
    omega
  · unfold constOfHex
    rw [if_neg (hexText_ne _), fold_hex]
    simp

example : hexText 0xbe0 = ['b', 'e', '0'] := by simp [hexText, hexDigit]

/-! ## Comparisons -/

/-- **C70.** A comparison compares the numbers as its name says. -/
theorem C70_compare {w : Nat} (c : IntCC) (a b : BitVec w) : icmp c a b = true ↔ holds c a b := by
  cases c
  · simp [icmp, convertIntcc, IntPredicate.eval, holds, BitVec.toNat_inj]
  · simp [icmp, convertIntcc, IntPredicate.eval, holds, BitVec.toNat_inj]
  all_goals
    simp only [icmp, convertIntcc, IntPredicate.eval, holds, BitVec.slt, BitVec.sle, BitVec.ult, BitVec.ule, decide_eq_true_eq] <;>
      first | exact Iff.rfl | (constructor <;> exact fun h => h)

example : icmp .slt (-1 : BitVec 256) 0 = true := by decide
example : icmp .ult (-1 : BitVec 256) 0 = false := by decide

/-- **C70.** Comparing with an immediate compares with that number, modulo the width. -/
theorem C70_compare_imm {w : Nat} (c : IntCC) (a : BitVec w) (k : BitVec 64) :
    icmpImm c a k = true ↔ holds c a (BitVec.ofInt w k.toInt) := by
  unfold icmpImm
  rw [C70_compare, C70_iconst]

/-- **C70.** An unsigned comparison with a non-negative immediate that fits is one with that number. -/
theorem C70_compare_imm_unsigned {w : Nat} (a : BitVec w) (k : BitVec 64) (h0 : 0 ≤ k.toInt) (hw : k.toNat < 2 ^ w) :
    (icmpImm .ult a k = true ↔ a.toNat < k.toNat) ∧ (icmpImm .ugt a k = true ↔ a.toNat > k.toNat) ∧
    (icmpImm .ule a k = true ↔ a.toNat ≤ k.toNat) ∧ (icmpImm .uge a k = true ↔ a.toNat ≥ k.toNat) ∧
    (icmpImm .eq a k = true ↔ a.toNat = k.toNat) ∧ (icmpImm .ne a k = true ↔ a.toNat ≠ k.toNat) := by
  have e : (BitVec.ofInt w k.toInt).toNat = k.toNat := by
    have hi : k.toInt = (k.toNat : Int) := by
      rw [BitVec.toInt_eq_toNat_cond] at h0 ⊢
      have := k.isLt
      split at h0 <;> omega
    rw [hi, BitVec.ofInt_natCast, BitVec.toNat_ofNat, Nat.mod_eq_of_lt hw]
  simp only [C70_compare_imm, holds, e, and_self]

example : icmpImm .ugt (1024 : BitVec 64) 1023 = true :=
  (C70_compare_imm_unsigned (1024 : BitVec 64) 1023 (by decide) (by decide)).2.1.2 (by decide)

/-- A negative immediate is a large number to an unsigned comparison. -/
example : icmpImm .ult (5 : BitVec 256) (-1) = true := by decide

/-! ## Arithmetic -/

/-- **C70.** Immediates are added, subtracted and multiplied as signed numbers, modulo the width. -/
theorem C70_arith_imm {w : Nat} (a : BitVec w) (k : BitVec 64) :
    iaddImm a k = BitVec.ofInt w (a.toInt + k.toInt) ∧ isubImm a k = BitVec.ofInt w (a.toInt - k.toInt) ∧
    imulImm a k = BitVec.ofInt w (a.toInt * k.toInt) := by
  unfold iaddImm isubImm imulImm
  rw [C70_iconst]
  refine ⟨?_, ?_, ?_⟩
  · rw [BitVec.ofInt_add, BitVec.ofInt_toInt]
  · rw [Int.sub_eq_add_neg, BitVec.ofInt_add, BitVec.ofInt_toInt, BitVec.ofInt_neg, BitVec.sub_eq_add_neg]
  · rw [BitVec.ofInt_mul, BitVec.ofInt_toInt]

example : iaddImm (5 : BitVec 256) (-7) = -2 := by decide

/-- **C70.** Immediates are combined bit by bit, with the sign bit repeated. -/
theorem C70_bits_imm {w : Nat} (a : BitVec w) (k : BitVec 64) (i : Nat) (hi : i < w) :
    (bitorImm a k).getLsbD i = (a.getLsbD i || if i < 64 then k.getLsbD i else k.msb) ∧
    (bitandImm a k).getLsbD i = (a.getLsbD i && if i < 64 then k.getLsbD i else k.msb) ∧
    (bitxorImm a k).getLsbD i = (a.getLsbD i ^^ if i < 64 then k.getLsbD i else k.msb) := by
  have h : (iconst w k).getLsbD i = if i < 64 then k.getLsbD i else k.msb := by
    rw [C70_iconst]
    show (k.signExtend w).getLsbD i = _
    rw [BitVec.getLsbD_signExtend]
    simp [hi]
  unfold bitorImm bitandImm bitxorImm
  rw [BitVec.getLsbD_or, BitVec.getLsbD_and, BitVec.getLsbD_xor, h]
  exact ⟨rfl, rfl, rfl⟩

example : bitandImm (0xffff : BitVec 256) (-2) = 0xfffe := by decide

/-- **C70.** A checked addition gives the sum, and says exactly whether it did not fit. -/
theorem C70_add {w : Nat} (a b : BitVec w) :
    (uaddOverflow a b).1.toNat = (a.toNat + b.toNat) % 2 ^ w ∧
    ((uaddOverflow a b).2 = true ↔ 2 ^ w ≤ a.toNat + b.toNat) := by
  refine ⟨BitVec.toNat_add a b, ?_⟩
  unfold uaddOverflow
  rw [C70_compare]
  show (a + b).toNat < b.toNat ↔ _
  rw [BitVec.toNat_add]
  have h1 := a.isLt
  have h2 := b.isLt
  by_cases h : a.toNat + b.toNat < 2 ^ w
  · rw [Nat.mod_eq_of_lt h]
    omega
  · rw [Nat.mod_eq_sub_mod (by omega), Nat.mod_eq_of_lt (by omega)]
    omega

example : uaddOverflow (200 : BitVec 8) 100 = (44, true) := by decide

/-- **C70.** A checked subtraction gives the difference, and says exactly whether it would be negative. -/
theorem C70_sub {w : Nat} (a b : BitVec w) :
    ((usubOverflow a b).2 = true ↔ a.toNat < b.toNat) ∧
    ((usubOverflow a b).2 = false → (usubOverflow a b).1.toNat = a.toNat - b.toNat) ∧
    ((usubOverflow a b).2 = true → (usubOverflow a b).1.toNat + b.toNat = 2 ^ w + a.toNat) := by
  have h : (usubOverflow a b).2 = true ↔ a.toNat < b.toNat := by
    unfold usubOverflow
    rw [C70_compare]
    exact Iff.rfl
  have h1 := a.isLt
  have h2 := b.isLt
  have hs : (usubOverflow a b).1.toNat = (2 ^ w - b.toNat + a.toNat) % 2 ^ w := BitVec.toNat_sub a b
  refine ⟨h, fun hf => ?_, fun ht => ?_⟩
  · have : ¬ a.toNat < b.toNat := fun h' => by rw [h.2 h'] at hf; cases hf
    rw [hs, Nat.mod_eq_sub_mod (by omega), Nat.mod_eq_of_lt (by omega)]
    omega
  · have := h.1 ht
    rw [hs, Nat.mod_eq_of_lt (by omega)]
    omega

example : usubOverflow (3 : BitVec 64) 5 = (-2, true) := by decide

/-! ## Switches -/

/-- **C70.** A switch whose keys fit the index goes to the target listed for it. -/
theorem C70_switch {w : Nat} {L : Type} (index : BitVec w) (dflt : L) : ∀ (ts : List (BitVec 64 × L)),
    (∀ t ∈ ts, t.1.toNat < 2 ^ w) → switchTo index dflt ts = target index.toNat dflt ts
  | [], _ => rfl
  | (k, l) :: ts, h => by
    have ih := C70_switch index dflt ts (fun t ht => h t (List.mem_cons_of_mem _ ht))
    have hk : k.toNat < 2 ^ w := h (k, l) (by simp)
    have he : constInt w k false = index ↔ k.toNat = index.toNat := by
      rw [← BitVec.toNat_inj]
      simp only [constInt, Bool.false_eq_true, if_false, BitVec.toNat_setWidth]
      rw [Nat.mod_eq_of_lt hk]
    unfold target
    rw [switchTo, List.find?_cons]
    by_cases hc : k.toNat = index.toNat
    · rw [if_pos (he.2 hc)]
      simp [hc]
    · rw [if_neg (fun h => hc (he.1 h)), ih]
      simp [hc, target]

example : switchTo (7 : BitVec 64) "invalid" [(3, "a"), (7, "b")] = "b" := by decide

/-- With a narrow index a key that does not fit stands for another one. -/
example : switchTo (1 : BitVec 8) "invalid" [(257, "a"), (1, "b")] = "a" := by decide

end Verif.Bld
