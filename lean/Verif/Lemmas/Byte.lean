/-!
# Exhausting byte-sized domains

A property of all 256 byte values follows from the (finite, complete) table over `Fin 256`.
-/

namespace Verif

theorem forall_uint8 {P : UInt8 → Prop} (h : ∀ n : Fin 256, P (UInt8.ofNat n.val)) : ∀ o, P o := by
  intro o
  have := h ⟨o.toNat, UInt8.toNat_lt o⟩
  simpa using this

/-- `∀ o : UInt8, P o` is decidable by checking all 256 values. -/
instance decidableForallUInt8 {P : UInt8 → Prop} [DecidablePred P] : Decidable (∀ o, P o) :=
  decidable_of_iff (∀ n : Fin 256, P (UInt8.ofNat n.val))
    ⟨forall_uint8, fun h n => h _⟩

end Verif
