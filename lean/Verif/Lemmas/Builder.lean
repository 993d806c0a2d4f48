import Verif.Model.Builder
/-!
# Printing and reading hexadecimal numbers
-/

namespace Verif.Bld

theorem digit_hex : ∀ d, d < 16 → digitVal (hexDigit d) = some d := by decide

theorem hexText_ne (n : Nat) : hexText n ≠ [] := by
  rw [hexText]
  split
  · simp
  · simp

theorem fold_hex (w : Nat) : ∀ n : Nat,
    (hexText n).foldl (fun acc c => acc.bind fun a => (digitVal c).map fun d => (a <<< 4) + BitVec.ofNat w d) (some (0 : BitVec w)) =
      some (BitVec.ofNat w n) := by
  intro n
  induction n using Nat.strongRecOn with
  | ind n ih =>
    rw [hexText]
    split
    · rename_i h
      rw [List.foldl_cons, List.foldl_nil, Option.bind_some, digit_hex n h, Option.map_some]
      congr 1
      apply BitVec.eq_of_toNat_eq
      simp
    · rename_i h
      rw [List.foldl_append, ih (n / 16) (by omega), List.foldl_cons, List.foldl_nil, Option.bind_some,
        digit_hex _ (Nat.mod_lt _ (by decide)), Option.map_some]
      congr 1
      apply BitVec.eq_of_toNat_eq
      rw [BitVec.toNat_add, BitVec.toNat_shiftLeft, BitVec.toNat_ofNat, BitVec.toNat_ofNat, BitVec.toNat_ofNat,
        Nat.shiftLeft_eq, Nat.add_mod_mod, Nat.mod_add_mod, Nat.add_mod, Nat.mod_mul_mod, ← Nat.add_mod]
      congr 1
      omega

end Verif.Bld
