import Verif.Lemmas.Opcode

/-!
# Properties C05 (EIP-8024 immediates) and C07 (opcode gating)
-/

namespace Verif
open OpcodeInfo

/-! ## C05 -/

/-- C05: `encode_single` and `decode_single` are mutually inverse partial maps. -/
theorem C05_single_roundtrip : ∀ n x : UInt8, encodeSingle n = some x ↔ decodeSingle x = some n := by
  intro n x
  constructor
  · intro h
    unfold encodeSingle at h
    dsimp only at h
    split at h
    · rename_i h'; cases h; exact h'
    · cases h
  · intro h
    have hx : ∀ x : UInt8, (decodeSingle x).all (fun y => decide (encodeSingle y = some x)) = true := by
      decide +kernel
    have := hx x
    rw [h] at this
    simpa using this

example : encodeSingle 200 = some 55 ∧ decodeSingle 55 = some 200 := by decide

/-- C05: exactly the stack indices 17..=235 are encodable, and exactly the bytes 0x5b..=0x7f are
rejected by the decoder. In particular no valid immediate is a JUMPDEST or PUSH byte. -/
theorem C05_single_ranges :
    (∀ n : UInt8, (∃ x, encodeSingle n = some x) ↔ (17 ≤ n.toNat ∧ n.toNat ≤ 235)) ∧
    (∀ x : UInt8, decodeSingle x = none ↔ (0x5b ≤ x.toNat ∧ x.toNat ≤ 0x7f)) := by
  refine ⟨?_, by decide +kernel⟩
  have h : ∀ n : UInt8, (encodeSingle n).isSome = true ↔ (17 ≤ n.toNat ∧ n.toNat ≤ 235) := by
    decide +kernel
  intro n
  rw [← h n, Option.isSome_iff_exists]

/-- The pairs that EIP-8024 allows for EXCHANGE (specification). -/
def Spec.exchangePair (n m : Nat) : Prop := 1 ≤ n ∧ n < m ∧ n + m ≤ 30

instance (n m : Nat) : Decidable (Spec.exchangePair n m) := by
  unfold Spec.exchangePair; infer_instance

/-- C05: the EXCHANGE decoder maps the bytes outside 82..=127 injectively onto exactly the pairs
`1 ≤ n < m`, `n + m ≤ 30`. -/
theorem C05_pair_decode :
    (∀ x : UInt8, decodePair x = none ↔ (82 ≤ x.toNat ∧ x.toNat ≤ 127)) ∧
    (∀ x y : UInt8, decodePair x ≠ none → decodePair x = decodePair y → x = y) ∧
    (∀ n m : UInt8, (∃ x, decodePair x = some (n, m)) ↔ Spec.exchangePair n.toNat m.toNat) := by
  refine ⟨by decide +kernel, ?_, ?_⟩
  · have hinv : ∀ x : UInt8, ∀ p ∈ decodePair x,
        x = (if p.2 ≤ 16 then 16 * (p.1 - 1) + (p.2 - 1) else 16 * (29 - p.2) + (p.1 - 1)) ^^^ 143 := by
      decide +kernel
    intro x y hx hxy
    cases hp : decodePair x with
    | none => exact absurd hp hx
    | some p => rw [hinv x p hp, ← hinv y p (hxy ▸ hp)]
  have h1 : ∀ x : UInt8, ∀ p ∈ decodePair x, Spec.exchangePair p.1.toNat p.2.toNat := by
    decide +kernel
  have h2 : ∀ n m : Fin 31, Spec.exchangePair n.val m.val →
      decodePair (UInt8.ofNat ((if m.val ≤ 16 then 16 * (n.val - 1) + (m.val - 1)
        else 16 * (29 - m.val) + (n.val - 1)) ^^^ 143)) =
        some (UInt8.ofNat n.val, UInt8.ofNat m.val) := by
    decide +kernel
  intro n m
  constructor
  · rintro ⟨x, hx⟩; exact h1 x _ hx
  · intro h
    have hb := h
    unfold Spec.exchangePair at hb
    have hx := h2 ⟨n.toNat, by omega⟩ ⟨m.toNat, by omega⟩ h
    simp only [UInt8.ofNat_toNat] at hx
    exact ⟨_, hx⟩

example : decodePair 0x8e = some (1, 2) ∧ decodePair 79 = some (1, 17) := by decide

/-- C05: whatever `encode_pair` returns decodes to the requested pair. -/
theorem C05_pair_encode_sound (n m x : UInt8) (h : encodePair n m = some x) :
    decodePair x = some (n, m) := by
  have key : ∀ q r, encodePairTry n m q r = some x → decodePair x = some (n, m) := by
    intro q r h
    unfold encodePairTry at h
    dsimp only at h
    split at h
    · cases h
    · split at h
      · rename_i h'; cases h; exact h'
      · cases h
  unfold encodePair at h
  split at h
  · cases h
  · split at h
    · exact key _ _ h
    · split at h
      · exact key _ _ h
      · cases h

example : encodePair 3 9 = some 167 := by decide

/-- C05, full statement for `encode_pair`: every pair that EIP-8024 allows can be encoded. -/
def C05_pair_complete : Prop :=
  ∀ n m : UInt8, Spec.exchangePair n.toNat m.toNat → ∃ x, encodePair n m = some x

/-- C05 fails for `encode_pair`: the valid pair (1, 17), which the byte 79 encodes, is rejected
(the code tries the second form only when `n ≥ m`, but all valid pairs have `n < m`). -/
theorem C05_pair_complete_fails : ¬ C05_pair_complete := by
  intro h
  obtain ⟨x, hx⟩ := h 1 17 (by decide)
  revert hx
  have : encodePair 1 17 = none := by decide
  rw [this]; simp

/-- C05, what does hold: a pair is encodable iff it is valid and `m ≤ 16`. Missing from the full
statement: the 91 valid pairs with `m ≥ 17`. -/
theorem C05_pair_complete_partial (n m : UInt8) :
    (∃ x, encodePair n m = some x) ↔ (Spec.exchangePair n.toNat m.toNat ∧ m.toNat ≤ 16) := by
  have h2 : ∀ n m : Fin 17, Spec.exchangePair n.val m.val →
      (encodePair (UInt8.ofNat n.val) (UInt8.ofNat m.val)).isSome = true := by
    decide +kernel
  constructor
  · rintro ⟨x, hx⟩
    have hd := C05_pair_encode_sound n m x hx
    have hv := (C05_pair_decode.2.2 n m).1 ⟨x, hd⟩
    refine ⟨hv, ?_⟩
    unfold Spec.exchangePair at hv
    unfold encodePair at hx
    have hnm : n < m := UInt8.lt_iff_toNat_lt.2 hv.2.1
    split at hx
    · cases hx
    · unfold encodePairTry at hx
      split at hx
      · cases hx
      · rename_i h0 h1
        have h3 : ¬ (16 ≤ (m - 1).toNat) := fun hc => h1 (Or.inr (UInt8.le_iff_toNat_le.2 hc))
        have h4 : (m - 1).toNat = m.toNat - 1 := by
          rw [UInt8.toNat_sub_of_le]
          · rfl
          · apply UInt8.le_iff_toNat_le.2; show 1 ≤ m.toNat; omega
        omega
  · rintro ⟨hv, hm⟩
    have hb := hv
    unfold Spec.exchangePair at hb
    have := h2 ⟨n.toNat, by omega⟩ ⟨m.toNat, by omega⟩ hv
    rw [← Option.isSome_iff_exists]
    simpa using this

/-- C05: the stack effect reported for DUPN/SWAPN/EXCHANGE is the one of the decoded immediate:
`DUPN n` reads n and leaves n+1, `SWAPN n` needs n+1 and keeps n+1, `EXCHANGE (n,m)` needs m+1. -/
theorem C05_stack_io (b : UInt8) (tl : List UInt8) :
    (∀ n, decodeSingle b = some n →
      computeStackIo op.DUPN (some (b :: tl)) = (n.toNat, n.toNat + 1) ∧
      computeStackIo op.SWAPN (some (b :: tl)) = (n.toNat + 1, n.toNat + 1)) ∧
    (∀ n m, decodePair b = some (n, m) →
      computeStackIo op.EXCHANGE (some (b :: tl)) = (m.toNat + 1, m.toNat + 1)) := by
  refine ⟨?_, ?_⟩
  · intro n h
    have e : op.SWAPN ≠ op.DUPN := by decide
    constructor <;> simp [computeStackIo, h, e]
  · intro n m h
    have e1 : op.EXCHANGE ≠ op.DUPN := by decide
    have e2 : op.EXCHANGE ≠ op.SWAPN := by decide
    simp [computeStackIo, h, e1, e2]

example : computeStackIo op.DUPN (some [0x80]) = (17, 18) := by decide

/-! ## C07 -/

/-- C07: for every interpreter gas table, fork and opcode, the info map marks the opcode disabled
exactly before the fork that introduced it, unknown exactly when it does not exist. -/
theorem C07_gating (g : UInt8 → BitVec 16) (spec : SpecId) (o : UInt8) :
    (isDisabled (makeMap g spec o) = true ↔ ∃ f, Spec.introFork o.toNat = some f ∧ spec < f) ∧
    (isUnknown (makeMap g spec o) = true ↔ Spec.introFork o.toNat = none) :=
  ⟨makeMap_disabled g spec o, makeMap_unknown g spec o⟩

example : isDisabled (makeMap (fun _ => 3) SpecId.MERGE op.PUSH0) = true ∧
    isDisabled (makeMap (fun _ => 3) SpecId.SHANGHAI op.PUSH0) = false ∧
    isUnknown (makeMap (fun _ => 3) SpecId.SHANGHAI 0x0c) = true := by decide

/-- C07: an opcode that is active in a fork is active in all later forks. -/
theorem C07_monotone (g g' : UInt8 → BitVec 16) (s s' : SpecId) (o : UInt8) (hs : s ≤ s')
    (h1 : isDisabled (makeMap g s o) = false) (h2 : isUnknown (makeMap g s o) = false) :
    isDisabled (makeMap g' s' o) = false ∧ isUnknown (makeMap g' s' o) = false := by
  have a := C07_gating g s o
  have b := C07_gating g' s' o
  constructor
  · rw [← Bool.not_eq_true, b.1]
    rintro ⟨f, hf, hlt⟩
    have : isDisabled (makeMap g s o) = true := a.1.2 ⟨f, hf, Nat.lt_of_le_of_lt hs hlt⟩
    simp [h1] at this
  · rw [← Bool.not_eq_true, b.2, ← a.2]; simp [h2]

/-- C07: the reported base gas of every defined opcode is the interpreter's static gas, or 0 for the
three opcodes charged entirely at run time; neither the dynamic nor the disabled flag disturbs it. -/
theorem C07_base_gas (g : UInt8 → BitVec 16) (spec : SpecId) (o : UInt8)
    (h : Spec.introFork o.toNat ≠ none) :
    baseGas (makeMap g spec o) =
      if o = 0x55 ∨ o = 0xf0 ∨ o = 0xf5 then 0 else g o := by
  have hs := opTable_isSome_iff o
  obtain ⟨r, hr⟩ : ∃ r, opTable o = some r := by
    cases ho : opTable o with
    | some r => exact ⟨r, rfl⟩
    | none => rw [ho] at hs; cases hf : Spec.introFork o.toNat <;> simp_all
  have hfd : FULLY_DYNAMIC.contains o = decide (o = 0x55 ∨ o = 0xf0 ∨ o = 0xf5) := by
    have : ∀ o : UInt8, FULLY_DYNAMIC.contains o = decide (o = 0x55 ∨ o = 0xf0 ∨ o = 0xf5) := by
      decide +kernel
    exact this o
  have hbase : baseGas (makeMapBase g o) = if o = 0x55 ∨ o = 0xf0 ∨ o = 0xf5 then 0 else g o := by
    unfold makeMapBase
    rw [hr]
    dsimp only
    rw [hfd]
    by_cases hc : o = 0x55 ∨ o = 0xf0 ∨ o = 0xf5
    · simp only [hc, decide_true, if_true, Bool.true_or, baseGas_setDynamic, baseGas_new]
    · simp only [hc, decide_false, if_false, Bool.false_or, Bool.false_eq_true]
      split <;> simp only [baseGas_setDynamic, baseGas_new]
  rw [makeMap_eq]
  split
  · rw [baseGas_setDisabled, hbase]
  · exact hbase

example : baseGas (makeMap (fun _ => 0xFFFF) SpecId.FRONTIER op.REVERT) = 0xFFFF ∧
    baseGas (makeMap (fun _ => 0xFFFF) SpecId.CANCUN op.CREATE2) = 0 := by decide

end Verif
