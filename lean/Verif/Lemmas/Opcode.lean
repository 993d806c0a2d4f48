import Verif.Model.Opcode
import Verif.Spec.Forks
import Verif.Lemmas.Byte

namespace Verif
open OpcodeInfo

theorem setDisabled_idem (i : OpcodeInfo) : setDisabled (setDisabled i) = setDisabled i := by
  simp [setDisabled, BitVec.or_assoc]

/-- The gating fold, for any list of gates. -/
theorem gate_fold (spec : SpecId) (l : List (UInt8 × SpecId)) (m : UInt8 → OpcodeInfo) (o : UInt8) :
    (l.foldl (fun m (g : UInt8 × SpecId) =>
      if spec < g.2 then fun o => if o = g.1 then (m o).setDisabled else m o else m) m) o
    = if l.any (fun g => decide (o = g.1 ∧ spec < g.2)) then (m o).setDisabled else m o := by
  induction l generalizing m with
  | nil => simp
  | cons g l ih =>
    rw [List.foldl_cons, ih]
    rw [List.any_cons]
    by_cases h1 : spec < g.2 <;> by_cases h2 : o = g.1 <;>
      simp only [h1, h2, and_self, and_false, false_and, decide_true, decide_false, Bool.true_or,
        Bool.false_or, if_true, if_false]
    split
    · exact setDisabled_idem _
    · rfl

theorem makeMap_eq (g : UInt8 → BitVec 16) (spec : SpecId) (o : UInt8) :
    makeMap g spec o =
      if SPEC_GATED_OPCODES.any (fun x => decide (o = x.1 ∧ spec < x.2))
      then (makeMapBase g o).setDisabled else makeMapBase g o := gate_fold ..

theorem getLsbD_new (gas : BitVec 16) (i : Nat) :
    (new gas).getLsbD i = (decide (i < 32) && gas.getLsbD i) := by
  simp [new]

theorem new_bit31 (gas : BitVec 16) : (new gas).getLsbD 31 = false := by
  rw [getLsbD_new, BitVec.getLsbD_of_ge _ _ (by omega)]; rfl
theorem new_bit29 (gas : BitVec 16) : (new gas).getLsbD 29 = false := by
  rw [getLsbD_new, BitVec.getLsbD_of_ge _ _ (by omega)]; rfl

theorem isDisabled_iff (i : OpcodeInfo) : isDisabled i = i.getLsbD 29 := by
  have h : (i &&& DISABLED) = if i.getLsbD 29 then DISABLED else 0 := by
    apply BitVec.eq_of_getLsbD_eq
    intro k hk
    have : DISABLED.getLsbD k = decide (k = 29) := by
      have : ∀ k : Fin 32, DISABLED.getLsbD k.val = decide (k.val = 29) := by decide
      exact this ⟨k, hk⟩
    by_cases hk29 : k = 29
    · subst hk29; rw [BitVec.getLsbD_and, this]; cases h : i.getLsbD 29 <;> 
      simp only [decide_true, Bool.and_true, if_true, Bool.false_eq_true, if_false, this] <;> decide
    · rw [BitVec.getLsbD_and, this]; cases h : i.getLsbD 29 <;> simp [hk29, this]
  unfold isDisabled
  rw [h]
  cases i.getLsbD 29 <;> decide

theorem isDisabled_setDisabled (i : OpcodeInfo) : isDisabled (setDisabled i) = true := by
  have h : DISABLED.getLsbD 29 = true := by decide
  rw [isDisabled_iff, setDisabled, BitVec.getLsbD_or, h, Bool.or_true]

theorem bit_DYNAMIC : DYNAMIC.getLsbD 29 = false ∧ DYNAMIC.getLsbD 31 = false := by decide
theorem bit_DISABLED : DISABLED.getLsbD 31 = false := by decide
theorem bit_UNKNOWN : UNKNOWN.getLsbD 31 = true ∧ UNKNOWN.getLsbD 29 = false := by decide

theorem isUnknown_false_of_bit31 {i : OpcodeInfo} (h : i.getLsbD 31 = false) :
    isUnknown i = false := by
  unfold isUnknown
  apply beq_false_of_ne
  intro e; rw [e, bit_UNKNOWN.1] at h; cases h

theorem base_defined {g o r} (h : opTable o = some r) :
    (makeMapBase g o).getLsbD 31 = false ∧ (makeMapBase g o).getLsbD 29 = false := by
  unfold makeMapBase
  rw [h]
  dsimp only
  split <;> simp only [setDynamic, BitVec.getLsbD_or, new_bit31, new_bit29, bit_DYNAMIC,
    Bool.or_self, and_self]

theorem base_undefined {g o} (h : opTable o = none) : makeMapBase g o = UNKNOWN := by
  unfold makeMapBase; rw [h]

/-- Complete table: revm's opcode table defines exactly the opcodes of the spec. -/
theorem opTable_isSome_iff : ∀ o : UInt8, (opTable o).isSome = (Spec.introFork o.toNat).isSome := by
  decide +kernel

/-- Complete table: the gate list agrees with the introduction forks. -/
theorem gates_agree : ∀ o : UInt8,
    (SPEC_GATED_OPCODES.filterMap fun x => if o = x.1 then some x.2 else none) =
      (match Spec.introFork o.toNat with
       | some f => if f = SpecId.FRONTIER then [] else [f]
       | none => []) := by
  decide +kernel

theorem gate_any_iff (spec : SpecId) (o : UInt8) :
    SPEC_GATED_OPCODES.any (fun x => decide (o = x.1 ∧ spec < x.2)) = true ↔
      ∃ f, Spec.introFork o.toNat = some f ∧ spec < f := by
  have key := gates_agree o
  have h1 : SPEC_GATED_OPCODES.any (fun x => decide (o = x.1 ∧ spec < x.2)) = true ↔
      ∃ f ∈ (SPEC_GATED_OPCODES.filterMap fun x => if o = x.1 then some x.2 else none), spec < f := by
    simp only [List.any_eq_true, decide_eq_true_eq, List.mem_filterMap]
    constructor
    · rintro ⟨x, hx, h1, h2⟩; exact ⟨x.2, ⟨x, hx, by simp [h1]⟩, h2⟩
    · rintro ⟨f, ⟨x, hx, h1⟩, h2⟩
      by_cases ho : o = x.1
      · simp [ho] at h1; exact ⟨x, hx, ho, h1 ▸ h2⟩
      · simp [ho] at h1
  rw [h1, key]
  cases h : Spec.introFork o.toNat with
  | none => simp
  | some f =>
    by_cases hf : f = SpecId.FRONTIER
    · simp [hf]
    · simp [hf]

theorem makeMap_disabled (g : UInt8 → BitVec 16) (spec : SpecId) (o : UInt8) :
    isDisabled (makeMap g spec o) = true ↔ ∃ f, Spec.introFork o.toNat = some f ∧ spec < f := by
  rw [makeMap_eq]
  by_cases h : SPEC_GATED_OPCODES.any (fun x => decide (o = x.1 ∧ spec < x.2)) = true
  · rw [if_pos h]
    simp only [isDisabled_setDisabled, true_iff]
    exact (gate_any_iff spec o).1 h
  · rw [if_neg h, ← gate_any_iff]
    simp only [h, iff_false]
    rw [isDisabled_iff]
    cases ho : opTable o with
    | none => rw [base_undefined ho, bit_UNKNOWN.2]
    | some r => rw [(base_defined (g := g) ho).2]

theorem makeMap_unknown (g : UInt8 → BitVec 16) (spec : SpecId) (o : UInt8) :
    isUnknown (makeMap g spec o) = true ↔ Spec.introFork o.toNat = none := by
  rw [makeMap_eq]
  have hs := opTable_isSome_iff o
  cases ho : opTable o with
  | none =>
    rw [ho] at hs
    have hn : Spec.introFork o.toNat = none := by
      cases h : Spec.introFork o.toNat <;> simp_all
    have : ¬ (SPEC_GATED_OPCODES.any (fun x => decide (o = x.1 ∧ spec < x.2)) = true) := by
      rw [gate_any_iff, hn]; simp
    rw [if_neg this, base_undefined ho, hn]
    simp [isUnknown]
  | some r =>
    rw [ho] at hs
    have hn : Spec.introFork o.toNat ≠ none := by
      intro h; simp [h] at hs
    simp only [hn, iff_false]
    have hb := (base_defined (g := g) ho).1
    split <;> rw [isUnknown_false_of_bit31] <;>
      simp only [setDisabled, BitVec.getLsbD_or, hb, bit_DISABLED, Bool.or_self,
        Bool.false_eq_true, not_false_eq_true]

theorem MASK_bit : ∀ k : Fin 32, MASK.getLsbD k.val = decide (k.val < 16) := by decide

theorem flag_low : ∀ k : Fin 16, DISABLED.getLsbD k.val = false ∧ DYNAMIC.getLsbD k.val = false := by
  decide

theorem baseGas_bit (i : OpcodeInfo) (k : Nat) (hk : k < 16) :
    (baseGas i).getLsbD k = i.getLsbD k := by
  unfold baseGas
  have h := MASK_bit ⟨k, by omega⟩
  simp only at h
  simp [hk, h]

theorem baseGas_setDisabled (i : OpcodeInfo) : baseGas (setDisabled i) = baseGas i := by
  apply BitVec.eq_of_getLsbD_eq
  intro k hk
  rw [baseGas_bit _ _ hk, baseGas_bit _ _ hk]
  simp [setDisabled, (flag_low ⟨k, hk⟩).1]

theorem baseGas_setDynamic (i : OpcodeInfo) : baseGas (setDynamic i) = baseGas i := by
  apply BitVec.eq_of_getLsbD_eq
  intro k hk
  rw [baseGas_bit _ _ hk, baseGas_bit _ _ hk]
  simp [setDynamic, (flag_low ⟨k, hk⟩).2]

theorem baseGas_new (gas : BitVec 16) : baseGas (new gas) = gas := by
  apply BitVec.eq_of_getLsbD_eq
  intro k hk
  rw [baseGas_bit _ _ hk, getLsbD_new]
  simp; omega

end Verif
