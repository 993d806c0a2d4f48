import Verif.Lemmas.Helper
/-!
# Specification: helper settings
-/

namespace Verif.Helper

/-- The table of a gas schedule: every one-byte id once, with its value. -/
def Spec.graph (g : GasParams) : List (UInt8 × UInt64) :=
  (List.range 256).map fun i => (UInt8.ofNat i, g (UInt8.ofNat i))

/-- A path that is valid UTF-8. -/
def Spec.Utf8 (p : Path) : Prop := ∀ x ∈ p, ∃ c, x = .inl c

end Verif.Helper
