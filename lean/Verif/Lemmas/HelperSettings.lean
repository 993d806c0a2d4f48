import Verif.Spec.Helper
/-!
# Lemmas: helper settings
-/

namespace Verif.Helper

theorem graph_eq (g : GasParams) : Spec.graph g = gasParamsToPairs g := by
  have h256 : GAS_PARAM_COUNT = 256 := rfl
  rw [Spec.graph, gasParamsToPairs, h256]

theorem specFromU8_ofNat (n : SpecId) (h : n ≤ SpecId.AMSTERDAM) :
    specFromU8 (UInt8.ofNat n) = some n := by
  have h15 : (n : Nat) < 15 := Nat.lt_succ_of_le h
  have : (UInt8.ofNat n).toNat = n := by
    simp only [UInt8.toNat_ofNat']; exact Nat.mod_eq_of_lt (Nat.lt_trans h15 (by decide))
  rw [specFromU8, this, if_pos h]

end Verif.Helper
