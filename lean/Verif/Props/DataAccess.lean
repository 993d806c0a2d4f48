import Verif.Lemmas.DataAccess
/-!
# Property C43: CALLDATALOAD, RETURNDATACOPY and BLOCKHASH
-/

namespace Verif.Builtins



/-- C43: CALLDATALOAD returns the 32 bytes at the offset, zero-padded, for every 256-bit offset. -/
theorem C43_calldataload (input : List UInt8) (offset : Word) (hlen : input.length < 2 ^ 64) :
    (calldataload input offset).toNat = Spec.dataWord input offset.toNat 32 := by
  unfold calldataload
  dsimp only
  rw [load_eq, satUsize_eq]
  by_cases h : offset.toNat < 2 ^ 64
  · rw [Nat.min_eq_left (by omega)]
  · rw [dataWord_beyond _ _ _ (by omega), dataWord_beyond _ _ _ (by omega)]

/-- C43: the constant-offset variant of CALLDATALOAD gives the same word. -/
theorem C43_calldataload_const (input : List UInt8) (offset : BitVec 64) :
    (calldataloadC input offset).toNat = Spec.dataWord input offset.toNat 32 := by
  unfold calldataloadC
  exact load_eq input offset.toNat

example : calldataload [1, 2, 3] 1#256 = BitVec.ofNat 256 (0x0203 * 256 ^ 30) := by decide

example : calldataload [1, 2, 3] (BitVec.ofNat 256 (2 ^ 64 + 1)) = 0 := by decide

/-- C43: RETURNDATACOPY succeeds iff the range lies in the return data, the copy and the memory
expansion can be paid, and (for a non-empty copy) the destination fits 64 bits; it then writes exactly
the requested bytes. -/
theorem C43_returndatacopy (env : Env) (ret : List UInt8) (m off len : Word) (s s' : Ecx)
    (r : Option (Nat × List UInt8)) (hret : ret.length < 2 ^ 63) :
    returndatacopy env ret m off len s = .ok r s' ↔
      off.toNat + len.toNat ≤ ret.length ∧ env.copyCost len.toNat ≤ s.gas ∧
      (len.toNat ≠ 0 → m.toNat < 2 ^ 64) ∧
      env.copyCost len.toNat + (env.memCost (Spec.touched s.words m len) - env.memCost s.words)
        ≤ s.gas ∧
      s' = { s with
        gas := s.gas - env.copyCost len.toNat -
          (env.memCost (Spec.touched s.words m len) - env.memCost s.words)
        words := Spec.touched s.words m len } ∧
      r = if len = 0 then none
        else some (m.toNat, (ret.drop off.toNat).take len.toNat) := by
  have hl0 : len = 0 ↔ len.toNat = 0 :=
    ⟨fun h => by rw [h]; rfl, fun h => BitVec.eq_of_toNat_eq h⟩
  have hsat := satUsize_eq off
  have hlt := off.isLt
  unfold returndatacopy
  constructor
  · intro h
    obtain ⟨n, s1, h1, h2⟩ := bind_ok.1 h
    obtain ⟨g1, rfl, rfl⟩ := tryUsize_ok.1 h1
    obtain ⟨_, s1, h3, h4⟩ := bind_ok.1 h2
    obtain ⟨g2, rfl⟩ := cond_throw_ok.1 h3
    obtain ⟨_, s1, h5, h6⟩ := bind_ok.1 h4
    obtain ⟨g3, rfl⟩ := chargeGas_ok.1 h5
    have hle : off.toNat + len.toNat ≤ ret.length := by
      unfold satAdd at g2
      omega
    by_cases hz : len = 0
    · have hz' := hl0.1 hz
      rw [if_neg (by omega)] at h6
      obtain ⟨rfl, rfl⟩ := pure_ok.1 h6
      have ht : Spec.touched s.words m len = s.words := by unfold Spec.touched; rw [if_pos hz]
      rw [ht]
      refine ⟨hle, g3, by omega, by omega, ?_, by rw [if_pos hz]⟩
      simp
    · have hz' : len.toNat ≠ 0 := fun h => hz (hl0.2 h)
      rw [if_pos hz'] at h6
      obtain ⟨n, s1, h7, h8⟩ := bind_ok.1 h6
      obtain ⟨g4, rfl, rfl⟩ := tryUsize_ok.1 h7
      obtain ⟨_, s1, h9, h10⟩ := bind_ok.1 h8
      obtain ⟨g5, rfl⟩ := ensureMemory_ok.1 h9
      obtain ⟨rfl, rfl⟩ := pure_ok.1 h10
      have ht : grown { s with gas := s.gas - env.copyCost len.toNat } m.toNat len.toNat
          = Spec.touched s.words m len := by
        unfold Spec.touched grown satAdd numWords; rw [if_neg hz]
      rw [ht] at g5 ⊢
      refine ⟨hle, g3, fun _ => g4, ?_, rfl, ?_⟩
      · dsimp only at g5; omega
      · rw [if_neg hz]
        have e1 : satUsize off = off.toNat := by omega
        have e2 : satAdd (satUsize off) len.toNat - satUsize off = len.toNat := by
          unfold satAdd; omega
        rw [e2, e1]
  · rintro ⟨hle, hc, hm, hg, rfl, rfl⟩
    have e1 : satUsize off = off.toNat := by omega
    have e2 : satAdd (satUsize off) len.toNat - satUsize off = len.toNat := by
      unfold satAdd; omega
    refine bind_ok.2 ⟨_, s, tryUsize_ok.2 ⟨by omega, rfl, rfl⟩, ?_⟩
    refine bind_ok.2 ⟨(), s, cond_throw_ok.2 ⟨by unfold satAdd; omega, rfl⟩, ?_⟩
    refine bind_ok.2 ⟨(), _, chargeGas_ok.2 ⟨hc, rfl⟩, ?_⟩
    by_cases hz : len = 0
    · have hz' := hl0.1 hz
      rw [if_neg (by omega), if_pos hz]
      have ht : Spec.touched s.words m len = s.words := by unfold Spec.touched; rw [if_pos hz]
      rw [ht]
      refine pure_ok.2 ⟨rfl, ?_⟩
      simp
    · have hz' : len.toNat ≠ 0 := fun h => hz (hl0.2 h)
      rw [if_pos hz', if_neg hz]
      refine bind_ok.2 ⟨_, _, tryUsize_ok.2 ⟨hm hz', rfl, rfl⟩, ?_⟩
      have ht : grown { s with gas := s.gas - env.copyCost len.toNat } m.toNat len.toNat
          = Spec.touched s.words m len := by
        unfold Spec.touched grown satAdd numWords; rw [if_neg hz]
      refine bind_ok.2 ⟨(), _, ensureMemory_ok.2 ⟨?_, rfl⟩, ?_⟩
      · rw [ht]; dsimp only; omega
      · rw [ht]
        refine pure_ok.2 ⟨?_, rfl⟩
        rw [e2, e1]

/-- C43: a RETURNDATACOPY beyond the return data fails before any gas is taken or memory grown, for
every 256-bit offset and length. -/
theorem C43_returndatacopy_bounds (env : Env) (ret : List UInt8) (m off len : Word) (s : Ecx)
    (hret : ret.length < 2 ^ 63) (h : ret.length < off.toNat + len.toNat) :
    returndatacopy env ret m off len s =
      .error (if len.toNat < 2 ^ 64 then .OutOfOffset else .InvalidOperandOOG) s := by
  have hsat := satUsize_eq off
  unfold returndatacopy
  by_cases hl : len.toNat < 2 ^ 64
  · rw [if_pos hl]
    refine bind_error.2 (Or.inr ⟨_, s, tryUsize_ok.2 ⟨hl, rfl, rfl⟩, ?_⟩)
    refine bind_error.2 (Or.inl ?_)
    rw [cond_pos (by unfold satAdd; omega)]
    rfl
  · rw [if_neg hl]
    refine bind_error.2 (Or.inl ?_)
    unfold tryUsize
    rw [if_neg hl]

example :
    returndatacopy (mainnet SpecId.CANCUN) [1, 2, 3] 32 1 2 { isStatic := false, gas := 100, self := 5 }
      = .ok (some (32, [2, 3])) { isStatic := false, gas := 91, words := 2, self := 5 } := by
  decide +kernel

/-- C43: BLOCKHASH asks the host for exactly the requested number iff it is one of the previous 256
blocks, and does not ask otherwise; for every requested number and every block number up to 2^64. -/
theorem C43_blockhash (number requested : Word) (h : number.toNat ≤ 2 ^ 64) :
    blockhash number requested =
      if requested.toNat < number.toNat ∧ number.toNat ≤ requested.toNat + 256 then
        some requested.toNat
      else none := by
  have hs := satUsize_eq requested
  have hd := satUsize_eq (number - requested)
  have h2 := number.isLt
  unfold blockhash
  by_cases h1 : number.toNat < requested.toNat
  · rw [if_pos h1, if_neg (by omega)]
  · rw [if_neg h1]
    have hsub : (number - requested).toNat = number.toNat - requested.toNat :=
      BitVec.toNat_sub_of_le (by rw [BitVec.le_def]; omega)
    rw [hsub] at hd
    dsimp only
    by_cases h3 : satUsize (number - requested) = 0
    · rw [if_pos h3, if_neg (by omega)]
    · rw [if_neg h3]
      by_cases h4 : satUsize (number - requested) ≤ 256
      · rw [if_pos h4, if_pos (by omega), show satUsize requested = requested.toNat by omega]
      · rw [if_neg h4, if_neg (by omega)]

example : blockhash 1000 744 = some 744 ∧ blockhash 1000 743 = none ∧ blockhash 1000 1000 = none := by
  decide

/-- Beyond 64-bit heights the host would be asked for the wrong (saturated) number. -/
example : blockhash (BitVec.ofNat 256 (2 ^ 64 + 10)) (BitVec.ofNat 256 (2 ^ 64 + 5))
    = some (2 ^ 64 - 1) := by decide

end Verif.Builtins
