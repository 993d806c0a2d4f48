import Verif.Lemmas.MemJump
/-!
# Properties C23 (memory bounds arithmetic), C25 (dynamic jumps)
-/

namespace Verif



/-! ## C23 -/

/-- C23: the fast path is taken exactly if the access `[offset, offset + len)` over unbounded
integers lies in the current memory, and it then uses the exact offset. -/
theorem C23_fast_iff (offset : Word) (len memLen : BitVec 64) (h0 : 0 < len.toNat)
    (hl : len.toNat ≤ 2 ^ 63) (hm : memLen.toNat < 2 ^ 63) :
    (∃ a, ensureMem offset len memLen = .fast a ∧ a.toNat = offset.toNat) ↔
      offset.toNat + len.toNat ≤ memLen.toNat := by
  have hs := satU64_63 offset
  have hadd : (satU64 offset 63 + len).toNat = (satU64 offset 63).toNat + len.toNat := by
    rw [BitVec.toNat_add]; omega
  unfold ensureMem
  simp only [BitVec.lt_def, hadd]
  split
  · rename_i h
    constructor
    · rintro ⟨a, ha, _⟩; cases ha
    · intro h'; omega
  · rename_i h
    constructor
    · intro _; omega
    · intro h'; exact ⟨_, rfl, by omega⟩

/-- C23: every fast access is inside memory. -/
theorem C23_fast_in_bounds (offset : Word) (len memLen : BitVec 64) (h0 : 0 < len.toNat)
    (hl : len.toNat ≤ 2 ^ 63) (hm : memLen.toNat < 2 ^ 63) (a : BitVec 64)
    (h : ensureMem offset len memLen = .fast a) :
    a.toNat = offset.toNat ∧ offset.toNat + len.toNat ≤ memLen.toNat := by
  have hs := satU64_63 offset
  have hadd : (satU64 offset 63 + len).toNat = (satU64 offset 63).toNat + len.toNat := by
    rw [BitVec.toNat_add]; omega
  unfold ensureMem at h
  simp only [BitVec.lt_def, hadd] at h
  split at h
  · cases h
  · cases h; omega

/-- C23: on the slow path the requested size is exactly `offset + len`, with the exact offset used
afterwards, or it is a request (smaller than the true one) for at least `2^63` bytes, whose expansion
cost exceeds any 64-bit gas counter (given that the current memory was paid for). -/
theorem C23_resize_request (offset : Word) (len memLen : BitVec 64) (h0 : 0 < len.toNat)
    (hl : len.toNat ≤ 2 ^ 63) (n a : BitVec 64) (h : ensureMem offset len memLen = .resize n a) :
    memLen.toNat < n.toNat ∧
    ((n.toNat = offset.toNat + len.toNat ∧ a.toNat = offset.toNat) ∨
     (2 ^ 63 ≤ n.toNat ∧ n.toNat ≤ offset.toNat + len.toNat ∧
      ∀ cur, Spec.memCost cur < 2 ^ 64 →
        2 ^ 64 ≤ Spec.memCost (numWords n.toNat) - Spec.memCost cur)) := by
  have hs := satU64_63 offset
  have hadd : (satU64 offset 63 + len).toNat = (satU64 offset 63).toNat + len.toNat := by
    rw [BitVec.toNat_add]; omega
  unfold ensureMem at h
  simp only [BitVec.lt_def, hadd] at h
  split at h
  · rename_i hlt
    cases h
    rw [hadd]
    refine ⟨hlt, ?_⟩
    by_cases hb : offset.toNat ≤ 2 ^ 63 - 1
    · left; omega
    · right
      refine ⟨by omega, by omega, ?_⟩
      intro cur hcur
      generalize hw : numWords ((satU64 offset 63).toNat + len.toNat) = w
      have h1 : 2 ^ 58 ≤ w := by rw [← hw]; unfold numWords; omega
      have h2 : 2 ^ 58 * 2 ^ 58 ≤ w * w := Nat.mul_le_mul h1 h1
      have h3 : 2 ^ 107 ≤ Spec.memCost w := by unfold Spec.memCost; omega
      omega
  · cases h

/-- C23: after the check has succeeded on either path (and the request was exact), the whole access
lies in memory. -/
theorem C23_access_in_memory (offset : Word) (len memLen : BitVec 64) (h0 : 0 < len.toNat)
    (hl : len.toNat ≤ 2 ^ 63) (n a : BitVec 64) (h : ensureMem offset len memLen = .resize n a)
    (hn : n.toNat < 2 ^ 63) :
    a.toNat + len.toNat ≤ mresizeLen memLen.toNat n.toNat ∧
    mresizeLen memLen.toNat n.toNat =
      max memLen.toNat (32 * ((offset.toNat + len.toNat + 31) / 32)) := by
  have := C23_resize_request offset len memLen h0 hl n a h
  unfold mresizeLen numWords
  omega

example : ensureMem 0x20#256 32#64 64#64 = .fast 0x20#64 ∧
    ensureMem 0x21#256 32#64 64#64 = .resize 0x41#64 0x21#64 ∧
    ensureMem (BitVec.ofNat 256 (2 ^ 64 + 1)) 32#64 64#64 =
      .resize (BitVec.ofNat 64 (2 ^ 63 + 31)) (BitVec.ofNat 64 (2 ^ 63 - 1)) := by decide +kernel

/-! ## C25 -/

/-- C25: a dynamic jump goes to `t` iff `t` is where the `JUMPDEST` whose counter equals the operand
(as unbounded integers) was placed. Code sizes are those representable in the 32-bit counters. -/
theorem C25_dynamic_jump (g : UInt8 → BitVec 16) (spec : SpecId) (code : List UInt8)
    (hlen : code.length < 2 ^ 32) (redirect : Nat → Nat) (w : Word) (t : Nat) :
    dynJump redirect (parse g spec code).instData w = some t ↔
      ∃ i d, (parse g spec code).insts[i]? = some (w.toNat, d) ∧ d.opcode = op.JUMPDEST ∧
        redirect i = t := by
  have hs := satU64_64 w
  have key : ∀ (x : Nat × InstData), x ∈ (parse g spec code).insts →
      ((x.2.opcode == op.JUMPDEST && satU64 w 64 == BitVec.ofNat 64 x.2.data) = true ↔
        x.2.opcode = op.JUMPDEST ∧ x.1 = w.toNat) := by
    intro x hx
    simp only [Bool.and_eq_true, beq_iff_eq]
    constructor
    · rintro ⟨ho, hv⟩
      obtain ⟨h1, h2⟩ := jumpdest_data g spec code x hx ho
      have := congrArg BitVec.toNat hv
      rw [hs, BitVec.toNat_ofNat] at this
      exact ⟨ho, by omega⟩
    · rintro ⟨ho, hv⟩
      obtain ⟨h1, h2⟩ := jumpdest_data g spec code x hx ho
      refine ⟨ho, ?_⟩
      apply BitVec.eq_of_toNat_eq
      rw [hs, BitVec.toNat_ofNat]
      omega
  unfold dynJump Parsed.instData
  rw [jumpTable_lookup, List.findIdx?_map]
  simp only [Nat.zero_add, Option.map_eq_some_iff]
  constructor
  · rintro ⟨j, hj, rfl⟩
    obtain ⟨hj1, hj2, _⟩ := List.findIdx?_eq_some_iff_getElem.1 hj
    obtain ⟨ho, hp⟩ := (key _ (List.getElem_mem hj1)).1 hj2
    refine ⟨j, _, ?_, ho, rfl⟩
    rw [List.getElem?_eq_getElem hj1, ← hp]
  · rintro ⟨i, d, hi, ho, rfl⟩
    refine ⟨i, ?_, rfl⟩
    obtain ⟨hi1, hi2⟩ := List.getElem?_eq_some_iff.1 hi
    refine List.findIdx?_eq_some_iff_getElem.2 ⟨hi1, ?_, ?_⟩
    · refine (key _ (List.getElem_mem hi1)).2 ?_
      rw [hi2]; exact ⟨ho, rfl⟩
    · intro j hj hc
      have hj1 : j < (parse g spec code).insts.length := by omega
      obtain ⟨_, hp⟩ := (key _ (List.getElem_mem hj1)).1 hc
      have : j = i := pc_inj g spec code (pc := w.toNat) (d := (parse g spec code).insts[j].2)
        (by rw [List.getElem?_eq_getElem hj1, ← hp]) hi
      omega

/-- C25: the dynamic jump fails iff the operand is not a destination the decoder accepts; in
particular for every operand of 2^32 and above. -/
theorem C25_dynamic_invalid (g : UInt8 → BitVec 16) (spec : SpecId) (code : List UInt8)
    (hlen : code.length < 2 ^ 32) (redirect : Nat → Nat) (w : Word) :
    dynJump redirect (parse g spec code).instData w = none ↔
      (parse g spec code).isValidJump w.toNat = false := by
  rw [Option.eq_none_iff_forall_ne_some, ← Bool.not_eq_true]
  simp only [ne_eq, C25_dynamic_jump g spec code hlen redirect w]
  unfold Parsed.isValidJump
  rw [List.any_eq_true]
  constructor
  · rintro h ⟨x, hx, hc⟩
    simp only [Bool.and_eq_true, beq_iff_eq] at hc
    obtain ⟨i, hi, hxi⟩ := List.getElem_of_mem hx
    exact h _ ⟨i, x.2, by rw [List.getElem?_eq_getElem hi, hxi, ← hc.1], hc.2, rfl⟩
  · rintro h t ⟨i, d, hi, ho, rfl⟩
    exact h ⟨_, List.mem_of_getElem? hi, by simp [ho]⟩

/-- C25: a jump resolved to several targets goes to `t` iff one of these targets has the operand as
its counter and was placed at `t`. -/
theorem C25_multi_jump (g : UInt8 → BitVec 16) (spec : SpecId) (code : List UInt8)
    (hlen : code.length < 2 ^ 32) (redirect : Nat → Nat) (targets : List Nat)
    (ht : ∀ i ∈ targets, ∃ x, (parse g spec code).insts[i]? = some x ∧ x.2.opcode = op.JUMPDEST)
    (w : Word) (t : Nat) :
    multiJump redirect (parse g spec code).instData targets w = some t ↔
      ∃ i ∈ targets, ∃ d, (parse g spec code).insts[i]? = some (w.toNat, d) ∧ redirect i = t := by
  induction targets with
  | nil => simp [multiJump]
  | cons a as ih =>
    obtain ⟨x, hx, ho⟩ := ht a (by simp)
    obtain ⟨h1, h2⟩ := jumpdest_data g spec code x (List.mem_of_getElem? hx) ho
    have ih := ih fun i hi => ht i (List.mem_cons_of_mem _ hi)
    have hg : (parse g spec code).instData[a]? = some x.2 := by
      simp [Parsed.instData, List.getElem?_map, hx]
    unfold multiJump at ih ⊢
    rw [List.filterMap_cons]
    simp only [hg, Option.map_some, List.lookup_cons]
    by_cases hw : w = BitVec.ofNat 256 x.2.data
    · have hx1 : x.1 = w.toNat := by rw [hw, BitVec.toNat_ofNat, h1]; omega
      have hxa : (parse g spec code).insts[a]? = some (w.toNat, x.2) := by rw [hx, ← hx1]
      simp only [hw, beq_self_eq_true]
      rw [← hw]
      constructor
      · intro h; exact ⟨a, by simp, x.2, hxa, Option.some.inj h⟩
      · rintro ⟨i, _, d, hi, rfl⟩
        rw [pc_inj g spec code hi hxa]
    · have hb : (w == BitVec.ofNat 256 x.2.data) = false := by simpa using hw
      simp only [hb, ih]
      constructor
      · rintro ⟨i, hi, h⟩; exact ⟨i, List.mem_cons_of_mem _ hi, h⟩
      · rintro ⟨i, hi, d, hd, hr⟩
        rcases List.mem_cons.1 hi with rfl | hi
        · rw [hx] at hd
          have h3 : x.1 = w.toNat := congrArg Prod.fst (Option.some.inj hd)
          refine absurd ?_ hw
          apply BitVec.eq_of_toNat_eq
          rw [BitVec.toNat_ofNat, h1, h3]
          have := w.isLt
          omega
        · exact ⟨i, hi, d, hd, hr⟩

/-- A program with two destinations and a 0x5b inside push data: operands 3 and 2^64+3 and 1. -/
example :
    let P := parse (fun _ => 3) SpecId.CANCUN [0x60, 0x5b, 0x56, 0x5b, 0x5b, 0x00]
    dynJump id P.instData 3#256 = some 2 ∧ dynJump id P.instData 4#256 = some 3 ∧
    dynJump id P.instData (BitVec.ofNat 256 (2 ^ 64 + 3)) = none ∧
    dynJump id P.instData 1#256 = none ∧
    multiJump id P.instData [2, 3] 4#256 = some 3 ∧
    multiJump id P.instData [2] 4#256 = none := by decide +kernel

end Verif
