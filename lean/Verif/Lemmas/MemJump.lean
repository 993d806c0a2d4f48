import Verif.Spec.MemJump
/-!
# Lemmas: memory bounds and dynamic jumps
-/

namespace Verif

/-- Saturation at 63 bits, on unbounded integers. -/
theorem satU64_63 (v : Word) : (satU64 v 63).toNat = min v.toNat (2 ^ 63 - 1) := by
  unfold satU64
  have e : ((if 63 < 128 then 1#128 <<< 63 else 0#128) - 1#128) = 0x7fffffffffffffff#128 := by decide
  simp only [e, BitVec.le_def, BitVec.toNat_setWidth, BitVec.toNat_ofNat]
  split
  · rename_i h
    simp only [BitVec.toNat_setWidth]
    omega
  · rename_i h
    simp only [BitVec.toNat_setWidth, BitVec.toNat_ofNat]
    omega

/-- Saturation at 64 bits, on unbounded integers. -/
theorem satU64_64 (v : Word) : (satU64 v 64).toNat = min v.toNat (2 ^ 64 - 1) := by
  unfold satU64
  have e : ((if 64 < 128 then 1#128 <<< 64 else 0#128) - 1#128) = 0xffffffffffffffff#128 := by decide
  simp only [e, BitVec.le_def, BitVec.toNat_setWidth, BitVec.toNat_ofNat]
  split
  · rename_i h
    simp only [BitVec.toNat_setWidth]
    omega
  · rename_i h
    simp only [BitVec.toNat_setWidth, BitVec.toNat_ofNat]
    omega

theorem jumpTable_lookup (redirect : Nat → Nat) (v : BitVec 64) :
    ∀ (l : List InstData) (i : Nat),
      (jumpTable redirect i l).lookup v =
        ((l.findIdx? fun d => d.opcode == op.JUMPDEST && v == BitVec.ofNat 64 d.data).map
          fun j => redirect (i + j))
  | [], i => by simp [jumpTable]
  | d :: ds, i => by
    have ih := jumpTable_lookup redirect v ds (i + 1)
    unfold jumpTable
    rw [List.findIdx?_cons]
    by_cases h : d.opcode == op.JUMPDEST
    · rw [if_pos h, List.lookup_cons]
      by_cases hv : v == BitVec.ofNat 64 d.data
      · simp [h, hv]
      · simp only [h, hv, Bool.and_false, Bool.false_eq_true, if_false, ih, Option.map_map]
        congr 1; funext j; simp only [Function.comp]; congr 1; omega
    · simp only [h, Bool.false_and, Bool.false_eq_true, if_false, ih, Option.map_map]
      congr 1; funext j; simp only [Function.comp]; congr 1; omega

/-- The `data` of a parsed `JUMPDEST` is its counter. -/
theorem jumpdest_data (g : UInt8 → BitVec 16) (spec : SpecId) (code : List UInt8)
    (x : Nat × InstData) (hx : x ∈ (parse g spec code).insts) (ho : x.2.opcode = op.JUMPDEST) :
    x.2.data = x.1 ∧ x.1 < code.length := by
  obtain ⟨pad, he, hpad⟩ := parse_insts g spec code
  rw [he, List.mem_append] at hx
  rcases hx with hx | hx
  · obtain ⟨_, hlt, _, it0, _, _, h⟩ := parseLoop_mem _ code code 0 [] (Or.inr (by simp)) x hx
    refine ⟨?_, hlt⟩
    rw [h, ho]
    rfl
  · rcases hpad with ⟨rfl, _⟩ | ⟨rfl, _⟩
    · simp only [List.mem_singleton] at hx
      subst hx
      have hd : op.STOP = op.JUMPDEST := ho
      exact absurd hd (by decide)
    · simp at hx

/-- Two parsed instructions with the same counter are the same instruction. -/
theorem pc_inj (g : UInt8 → BitVec 16) (spec : SpecId) (code : List UInt8) {i j pc : Nat}
    {d e : InstData} (hi : (parse g spec code).insts[i]? = some (pc, d))
    (hj : (parse g spec code).insts[j]? = some (pc, e)) : i = j := by
  have hinc := C02_increasing g spec code
  obtain ⟨hi1, hi2⟩ := List.getElem?_eq_some_iff.1 hi
  obtain ⟨hj1, hj2⟩ := List.getElem?_eq_some_iff.1 hj
  rcases Nat.lt_trichotomy i j with h | h | h
  · have := List.pairwise_iff_getElem.1 hinc i j hi1 hj1 h
    rw [hi2, hj2] at this; exact absurd this (Nat.lt_irrefl _)
  · exact h
  · have := List.pairwise_iff_getElem.1 hinc j i hj1 hi1 h
    rw [hi2, hj2] at this; exact absurd this (Nat.lt_irrefl _)

end Verif
