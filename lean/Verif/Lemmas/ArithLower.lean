import Verif.Lemmas.Arith
import Verif.Lemmas.Byte
import Verif.Model.Lower
/-!
# Lemmas for constant folding, lowering and peephole rewrites
-/

namespace Verif
open U256

theorem ofBool_decide (p : Prop) [Decidable p] : ofBool (decide p) = Spec.bool p := by
  unfold ofBool Spec.bool; by_cases h : p <;> simp [h]

theorem ofBool_congr {b : Bool} {p : Prop} [Decidable p] (h : b = true ↔ p) :
    ofBool b = Spec.bool p := by
  rw [← ofBool_decide]; congr 1; cases b <;> simp_all

theorem not_spec (a : Word) : ~~~a = Spec.word (2 ^ 256 - 1 - a.toNat) := by
  rw [eq_word_iff, BitVec.toNat_not]; omega

theorem sub_spec (a b : Word) : a - b = Spec.iword ((a.toNat : Int) - b.toNat) := by
  apply BitVec.eq_of_toInt_eq
  rw [Spec.iword, BitVec.toInt_ofInt, BitVec.toInt_sub, BitVec.toInt_eq_toNat_bmod,
    BitVec.toInt_eq_toNat_bmod, Int.bmod_sub_bmod, Int.sub_bmod_bmod]

theorem ne_toNat {o c : UInt8} {n : Nat} (h : ¬ o = c) (hn : c.toNat = n) : ¬ o.toNat = n := by
  intro e; exact h (UInt8.toNat_inj.1 (e.trans hn.symm))

theorem fold1_spec (o : UInt8) (a : Word) (cl pc : Nat) :
    fold1 o a = Spec.evalOp cl pc o.toNat [a] := by
  unfold fold1
  by_cases hISZERO : o = op.ISZERO
  · subst hISZERO
    exact congrArg some (ofBool_congr (by rw [beq_iff_eq, toNat_eq_zero]))
  by_cases hNOT : o = op.NOT
  · subst hNOT
    exact congrArg some (not_spec a)
  by_cases hCLZ : o = op.CLZ
  · subst hCLZ
    exact congrArg some (clz_spec a)
  simp only [beq_iff_eq, *, if_false]
  simp only [Spec.evalOp]
  rw [if_neg (ne_toNat hISZERO (n := 0x15) rfl),
    if_neg (ne_toNat hNOT (n := 0x19) rfl),
    if_neg (ne_toNat hCLZ (n := 0x1e) rfl)]

theorem fold2_spec (o : UInt8) (a b : Word) (cl pc : Nat) :
    fold2 o a b = Spec.evalOp cl pc o.toNat [a, b] := by
  unfold fold2
  by_cases hADD : o = op.ADD
  · subst hADD
    refine congrArg some ((eq_word_iff _ _).2 (BitVec.toNat_add _ _))
  by_cases hMUL : o = op.MUL
  · subst hMUL
    refine congrArg some ((eq_word_iff _ _).2 (BitVec.toNat_mul _ _))
  by_cases hSUB : o = op.SUB
  · subst hSUB
    exact congrArg some (sub_spec a b)
  by_cases hDIV : o = op.DIV
  · subst hDIV
    refine congrArg some (a₁ := if b ≠ 0 then a / b else 0) ?_
    unfold Spec.div
    by_cases hb : b = 0
    · rw [if_neg (by simp [hb]), if_pos ((toNat_eq_zero b).2 hb)]
    · rw [if_pos hb, if_neg (fun e => hb ((toNat_eq_zero b).1 e)), eq_word_iff, BitVec.toNat_udiv]
      rw [Nat.mod_eq_of_lt]
      exact Nat.lt_of_le_of_lt (Nat.div_le_self _ _) (word_toNat_lt a)
  by_cases hSDIV : o = op.SDIV
  · subst hSDIV
    exact congrArg some (i256Div_spec a b)
  by_cases hMOD : o = op.MOD
  · subst hMOD
    refine congrArg some (a₁ := if b ≠ 0 then a % b else 0) ?_
    unfold Spec.mod
    by_cases hb : b = 0
    · rw [if_neg (by simp [hb]), if_pos ((toNat_eq_zero b).2 hb)]
    · rw [if_pos hb, if_neg (fun e => hb ((toNat_eq_zero b).1 e)), eq_word_iff, BitVec.toNat_umod]
      rw [Nat.mod_eq_of_lt (b := 2 ^ 256)]
      exact Nat.lt_of_le_of_lt (Nat.mod_le _ _) (word_toNat_lt a)
  by_cases hSMOD : o = op.SMOD
  · subst hSMOD
    exact congrArg some (i256Mod_spec a b)
  by_cases hEXP : o = op.EXP
  · subst hEXP
    exact congrArg some (pow_spec a b)
  by_cases hSIGNEXTEND : o = op.SIGNEXTEND
  · subst hSIGNEXTEND
    exact congrArg some (foldSignextend_spec a b)
  by_cases hLT : o = op.LT
  · subst hLT
    exact congrArg some (ofBool_decide _)
  by_cases hGT : o = op.GT
  · subst hGT
    exact congrArg some (ofBool_decide _)
  by_cases hSLT : o = op.SLT
  · subst hSLT
    exact congrArg some (ofBool_congr (by rw [beq_iff_eq, i256Cmp_lt]))
  by_cases hSGT : o = op.SGT
  · subst hSGT
    exact congrArg some (ofBool_congr (by rw [beq_iff_eq, i256Cmp_gt]))
  by_cases hEQ : o = op.EQ
  · subst hEQ
    exact congrArg some (ofBool_congr (by rw [beq_iff_eq]))
  by_cases hAND : o = op.AND
  · subst hAND
    refine congrArg some ((eq_word_iff _ _).2 ?_)
    rw [BitVec.toNat_and, Nat.mod_eq_of_lt]
    exact Nat.and_lt_two_pow _ (word_toNat_lt b)
  by_cases hOR : o = op.OR
  · subst hOR
    refine congrArg some ((eq_word_iff _ _).2 ?_)
    rw [BitVec.toNat_or, Nat.mod_eq_of_lt]
    exact Nat.or_lt_two_pow (word_toNat_lt a) (word_toNat_lt b)
  by_cases hXOR : o = op.XOR
  · subst hXOR
    refine congrArg some ((eq_word_iff _ _).2 ?_)
    rw [BitVec.toNat_xor, Nat.mod_eq_of_lt]
    exact Nat.xor_lt_two_pow (word_toNat_lt a) (word_toNat_lt b)
  by_cases hBYTE : o = op.BYTE
  · subst hBYTE
    exact congrArg some (foldByte_spec a b)
  by_cases hSHL : o = op.SHL
  · subst hSHL
    refine congrArg some (a₁ := foldShl a b) ?_
    unfold foldShl
    dsimp only
    by_cases hs : a.toNat < 256
    · rw [if_pos ((sat_lt_iff (by omega)).2 hs), sat_small (by omega) hs, shl_small]
    · rw [if_neg (fun h' => hs ((sat_lt_iff (by omega)).1 h')), shl_big hs]
  by_cases hSHR : o = op.SHR
  · subst hSHR
    refine congrArg some (a₁ := foldShr a b) ?_
    unfold foldShr
    dsimp only
    by_cases hs : a.toNat < 256
    · rw [if_pos ((sat_lt_iff (by omega)).2 hs), sat_small (by omega) hs, shr_small]
    · rw [if_neg (fun h' => hs ((sat_lt_iff (by omega)).1 h')), shr_big hs]
  by_cases hSAR : o = op.SAR
  · subst hSAR
    refine congrArg some (a₁ := foldSar a b) ?_
    unfold foldSar
    dsimp only
    by_cases hs : a.toNat < 256
    · rw [if_pos ((sat_lt_iff (by omega)).2 hs), sat_small (by omega) hs, sar_small]
    · rw [if_neg (fun h' => hs ((sat_lt_iff (by omega)).1 h')), sar_big hs]
      by_cases hm : 2 ^ 255 ≤ b.toNat
      · rw [if_pos ((msb_iff b).2 hm), if_pos hm]
      · rw [if_neg (fun h' => hm ((msb_iff b).1 h')), if_neg hm]
  simp only [beq_iff_eq, *, if_false]
  simp only [Spec.evalOp]
  rw [if_neg (ne_toNat hADD (n := 0x01) rfl),
    if_neg (ne_toNat hMUL (n := 0x02) rfl),
    if_neg (ne_toNat hSUB (n := 0x03) rfl),
    if_neg (ne_toNat hDIV (n := 0x04) rfl),
    if_neg (ne_toNat hSDIV (n := 0x05) rfl),
    if_neg (ne_toNat hMOD (n := 0x06) rfl),
    if_neg (ne_toNat hSMOD (n := 0x07) rfl),
    if_neg (ne_toNat hEXP (n := 0x0a) rfl),
    if_neg (ne_toNat hSIGNEXTEND (n := 0x0b) rfl),
    if_neg (ne_toNat hLT (n := 0x10) rfl),
    if_neg (ne_toNat hGT (n := 0x11) rfl),
    if_neg (ne_toNat hSLT (n := 0x12) rfl),
    if_neg (ne_toNat hSGT (n := 0x13) rfl),
    if_neg (ne_toNat hEQ (n := 0x14) rfl),
    if_neg (ne_toNat hAND (n := 0x16) rfl),
    if_neg (ne_toNat hOR (n := 0x17) rfl),
    if_neg (ne_toNat hXOR (n := 0x18) rfl),
    if_neg (ne_toNat hBYTE (n := 0x1a) rfl),
    if_neg (ne_toNat hSHL (n := 0x1b) rfl),
    if_neg (ne_toNat hSHR (n := 0x1c) rfl),
    if_neg (ne_toNat hSAR (n := 0x1d) rfl)]

theorem fold3_spec (o : UInt8) (a b n : Word) (cl pc : Nat) :
    fold3 o a b n = Spec.evalOp cl pc o.toNat [a, b, n] := by
  unfold fold3
  by_cases hADDMOD : o = op.ADDMOD
  · subst hADDMOD
    exact congrArg some (addMod_spec a b n)
  by_cases hMULMOD : o = op.MULMOD
  · subst hMULMOD
    exact congrArg some (mulMod_spec a b n)
  simp only [beq_iff_eq, *, if_false]
  simp only [Spec.evalOp]
  rw [if_neg (ne_toNat hADDMOD (n := 0x08) rfl),
    if_neg (ne_toNat hMULMOD (n := 0x09) rfl)]

theorem mul8 {e : Word} {n : Nat} (h : e.toNat < n) (hn : n ≤ 32) : (248#256 - e * 8#256).toNat = (2 ^ 256 + 248 - 8 * e.toNat) % 2 ^ 256 := by
  rw [BitVec.toNat_sub, BitVec.toNat_mul]
  simp only [BitVec.toNat_ofNat]
  omega

theorem lowerSignextend_spec (k x : Word) :
    lowerSignextend (some k) (some x) = some (Spec.signextend k x) := by
  unfold lowerSignextend
  simp only [IR.const, IR.icmp, IR.imul, IR.isub, IR.bin, IR.ult]
  by_cases h : k.toNat < 31
  · have hs : (248#256 - k * 8#256).toNat = 248 - 8 * k.toNat := by
      rw [mul8 h (by omega)]; omega
    have h31 : decide (k.toNat < (31 : Word).toNat) = true := by
      rw [decide_eq_true_eq]; exact h
    have hs' : ((248 : Word) - k * (8 : Word)).toNat = 248 - 8 * k.toNat := hs
    rw [h31]
    simp only [IR.select, IR.ishl, IR.sshr]
    rw [hs', if_pos (by omega)]
    dsimp only
    rw [hs', if_pos (by omega)]
    congr 1
    apply BitVec.eq_of_getLsbD_eq
    intro i hi
    rw [signextend_getLsbD k x h, decide_eq_true hi, Bool.true_and, BitVec.getLsbD_sshiftRight,
      BitVec.msb_eq_getLsbD_last]
    simp only [BitVec.getLsbD_shiftLeft]
    have h1 : ¬ 256 ≤ i := by omega
    rw [decide_eq_false h1, Bool.not_false, Bool.true_and]
    by_cases h2 : i < 8 * k.toNat + 7
    · rw [if_pos (by omega), if_pos h2, decide_eq_true (by omega), decide_eq_false (by omega)]
      simp only [Bool.not_false, Bool.true_and]
      congr 1; omega
    · rw [if_neg h2]
      by_cases h3 : 248 - 8 * k.toNat + i < 256
      · rw [if_pos h3, decide_eq_true (by omega), decide_eq_false (by omega)]
        simp only [Bool.not_false, Bool.true_and]
        congr 1; omega
      · rw [if_neg h3, decide_eq_true (by omega), decide_eq_false (by omega)]
        simp only [Bool.not_false, Bool.true_and]
        congr 1; omega
  · have h31 : decide (k.toNat < (31 : Word).toNat) = false := by
      rw [decide_eq_false_iff_not]; exact h
    rw [h31]
    simp only [IR.select]
    rw [Spec.signextend, if_neg h]

theorem lowerByte_spec (i x : Word) : lowerByte (some i) (some x) = some (Spec.byte i x) := by
  unfold lowerByte
  simp only [IR.const, IR.icmp, IR.imul, IR.isub, IR.bin, IR.ult]
  by_cases h : i.toNat < 32
  · have hs : (248#256 - i * 8#256).toNat = 248 - 8 * i.toNat := by
      rw [mul8 h (by omega)]; omega
    have hs' : ((248 : Word) - i * (8 : Word)).toNat = 248 - 8 * i.toNat := hs
    have h32 : decide (i.toNat < (32 : Word).toNat) = true := by
      rw [decide_eq_true_eq]; exact h
    rw [h32]
    simp only [IR.select, IR.ushr, IR.bitand, IR.bin]
    rw [hs', if_pos (by omega)]
    dsimp only
    have := foldByte_spec i x
    unfold foldByte at this
    dsimp only at this
    rw [if_pos ((sat_lt_iff (by omega)).2 h), sat_small (by omega) h] at this
    rw [← this]
    congr 3; omega
  · have h32 : decide (i.toNat < (32 : Word).toNat) = false := by
      rw [decide_eq_false_iff_not]; exact h
    rw [h32]
    simp only [IR.select]
    rw [Spec.byte, if_neg h]

theorem lowerShift_spec (sh : IRVal → IRVal → IRVal) (f : Word → Nat → Word)
    (hsh : ∀ x n : Word, sh (some x) (some n) = if n.toNat < 256 then some (f x n.toNat) else none)
    (s x d r : Word) (h1 : s.toNat < 256 → f x s.toNat = r) (h2 : ¬ s.toNat < 256 → d = r) :
    lowerShift sh (some s) (some x) (some d) = some r := by
  unfold lowerShift
  simp only [IR.const, IR.icmp, IR.ugt, hsh]
  have e255 : (255 : Word).toNat = 255 := rfl
  rw [e255]
  by_cases h : s.toNat < 256
  · rw [if_pos h, decide_eq_false (by omega), h1 h]; rfl
  · rw [if_neg h, decide_eq_true (by omega), h2 h]; rfl

theorem isPowerOfTwo_iff (x : Word) : isPowerOfTwo x = true ↔ ∃ k, k < 256 ∧ x.toNat = 2 ^ k := by
  have hx := word_toNat_lt x
  unfold isPowerOfTwo
  simp only [Bool.and_eq_true, bne_iff_ne, ne_eq, beq_iff_eq]
  rw [← toNat_eq_zero, ← toNat_eq_zero, BitVec.toNat_and]
  constructor
  · rintro ⟨h0, h1⟩
    have hs : (x - 1).toNat = x.toNat - 1 := by
      rw [BitVec.toNat_sub]
      simp only [BitVec.ofNat_eq_ofNat, BitVec.toNat_ofNat]
      omega
    rw [hs] at h1
    obtain ⟨k, hk⟩ := (Nat.and_sub_one_eq_zero_iff_isPowerOfTwo h0).1 h1
    refine ⟨k, ?_, hk⟩
    rw [hk] at hx
    exact (Nat.pow_lt_pow_iff_right (by omega)).1 hx
  · rintro ⟨k, hk, he⟩
    have h0 : x.toNat ≠ 0 := by rw [he]; exact Nat.ne_of_gt (Nat.two_pow_pos k)
    have hs : (x - 1).toNat = x.toNat - 1 := by
      rw [BitVec.toNat_sub]
      simp only [BitVec.ofNat_eq_ofNat, BitVec.toNat_ofNat]
      omega
    refine ⟨h0, ?_⟩
    rw [hs]
    exact (Nat.and_sub_one_eq_zero_iff_isPowerOfTwo h0).2 ⟨k, he⟩

theorem trailingZeros_two_pow (k : Nat) : ∀ fuel, k < fuel → trailingZeros (2 ^ k) fuel = k := by
  induction k with
  | zero =>
    intro fuel h
    match fuel, h with
    | f + 1, _ => simp [trailingZeros]
  | succ k ih =>
    intro fuel h
    match fuel, h with
    | f + 1, h =>
      have h1 : ¬ 2 ^ (k + 1) % 2 = 1 := by rw [Nat.pow_succ]; omega
      have h2 : 2 ^ (k + 1) / 2 = 2 ^ k := by rw [Nat.pow_succ]; omega
      rw [trailingZeros, if_neg h1, h2, ih f (by omega)]; omega


theorem eq_zero_of {a : Word} {ca : Option Word} (h : ∀ w, ca = some w → w = a) (h0 : ca = some 0) :
    a = 0 := (h 0 h0).symm

theorem sdiv_zero_left (b : Word) : Spec.sdiv 0 b = 0 := by
  unfold Spec.sdiv
  split
  · rfl
  · rw [(sgn_eq_zero 0).2 rfl, Int.zero_tdiv]; rfl

theorem smod_zero_left (b : Word) : Spec.smod 0 b = 0 := by
  unfold Spec.smod
  split
  · rfl
  · rw [(sgn_eq_zero 0).2 rfl, Int.zero_tmod]; rfl

theorem div_zero_left (b : Word) : Spec.div 0 b = 0 := by
  unfold Spec.div
  split
  · rfl
  · have : (0 : Word).toNat = 0 := rfl
    rw [this, Nat.zero_div]; rfl

theorem mod_zero_left (b : Word) : Spec.mod 0 b = 0 := by
  unfold Spec.mod
  split
  · rfl
  · have : (0 : Word).toNat = 0 := rfl
    rw [this, Nat.zero_mod]; rfl

theorem sgn_one : Spec.sgn 1 = 1 := by decide

theorem sgn_allOnes : Spec.sgn (BitVec.allOnes 256) = -1 := by decide

theorem sgn_intMin : Spec.sgn intMin = -2 ^ 255 := by decide

theorem peepholeDiv_spec {ca cb : Option Word} {a b : Word} {p : Peep}
    (ha : ∀ w, ca = some w → w = a) (hb : ∀ w, cb = some w → w = b)
    (h : peepholeDiv ca cb (some a) = some p) :
    p.value = some (Spec.div a b) ∧ p.payExpGas = false := by
  unfold peepholeDiv at h
  split at h
  · rename_i h0
    cases h; cases hb _ h0
    exact ⟨rfl, rfl⟩
  split at h
  · rename_i h0
    cases h; cases hb _ h0
    refine ⟨congrArg some ?_, rfl⟩
    have : (1 : Word).toNat = 1 := rfl
    rw [Spec.div, this, if_neg (by omega), Nat.div_one, word_toNat]
  have zero : ∀ {q}, (if ca = some 0 then foldConst 0 else none) = some q →
      q.value = some (Spec.div a b) ∧ q.payExpGas = false := by
    intro q hq
    split at hq
    · rename_i h0
      cases hq; cases ha _ h0
      rw [div_zero_left]; exact ⟨rfl, rfl⟩
    · simp at hq
  split at h
  · rename_i d
    split at h
    · rename_i hp
      cases h; cases hb _ rfl
      obtain ⟨k, hk, he⟩ := (isPowerOfTwo_iff b).1 hp
      have hd0 : b ≠ 0 := by
        intro e
        rw [← toNat_eq_zero] at e
        have := Nat.two_pow_pos k
        omega
      refine ⟨?_, rfl⟩
      simp only [IR.udiv, IR.const]
      rw [if_neg hd0]
      congr 1
      rw [Spec.div, if_neg (fun e => hd0 ((toNat_eq_zero _).1 e)), eq_word_iff, BitVec.toNat_udiv,
        Nat.mod_eq_of_lt]
      exact Nat.lt_of_le_of_lt (Nat.div_le_self _ _) (word_toNat_lt a)
    · exact zero h
  · exact zero h

theorem peepholeMod_spec {ca cb : Option Word} {a b : Word} {p : Peep}
    (ha : ∀ w, ca = some w → w = a) (hb : ∀ w, cb = some w → w = b)
    (h : peepholeMod ca cb (some a) = some p) :
    p.value = some (Spec.mod a b) ∧ p.payExpGas = false := by
  unfold peepholeMod at h
  split at h
  · rename_i h0
    cases h
    rcases h0 with h0 | h0
    · cases hb _ h0
      exact ⟨rfl, rfl⟩
    · cases hb _ h0
      refine ⟨congrArg some ?_, rfl⟩
      have : (1 : Word).toNat = 1 := rfl
      rw [Spec.mod, this, if_neg (by omega), Nat.mod_one]; rfl
  have zero : ∀ {q}, (if ca = some 0 then foldConst 0 else none) = some q →
      q.value = some (Spec.mod a b) ∧ q.payExpGas = false := by
    intro q hq
    split at hq
    · rename_i h0
      cases hq; cases ha _ h0
      rw [mod_zero_left]; exact ⟨rfl, rfl⟩
    · simp at hq
  split at h
  · rename_i d
    split at h
    · rename_i hp
      cases h; cases hb _ rfl
      obtain ⟨k, hk, he⟩ := (isPowerOfTwo_iff b).1 hp
      have hd0 : b ≠ 0 := by
        intro e
        rw [← toNat_eq_zero] at e
        have := Nat.two_pow_pos k
        omega
      refine ⟨?_, rfl⟩
      simp only [IR.urem, IR.const]
      rw [if_neg hd0]
      congr 1
      rw [Spec.mod, if_neg (fun e => hd0 ((toNat_eq_zero _).1 e)), eq_word_iff, BitVec.toNat_umod,
        Nat.mod_eq_of_lt (b := 2 ^ 256)]
      exact Nat.lt_of_le_of_lt (Nat.mod_le _ _) (word_toNat_lt a)
    · exact zero h
  · exact zero h

theorem peepholeSdiv_spec {ca cb : Option Word} {a b : Word} {p : Peep}
    (ha : ∀ w, ca = some w → w = a) (hb : ∀ w, cb = some w → w = b)
    (h : peepholeSdiv ca cb (some a) = some p) :
    p.value = some (Spec.sdiv a b) ∧ p.payExpGas = false := by
  unfold peepholeSdiv at h
  split at h
  · rename_i h0
    cases h; cases hb _ h0
    exact ⟨rfl, rfl⟩
  split at h
  · rename_i h0
    cases h; cases hb _ h0
    refine ⟨congrArg some ?_, rfl⟩
    rw [Spec.sdiv, sgn_one, if_neg (by omega), Int.tdiv_one, iword_sgn]
  split at h
  · rename_i h0
    cases h; cases hb _ h0
    refine ⟨congrArg some ?_, rfl⟩
    rw [Spec.sdiv, sgn_allOnes, if_neg (by omega), Int.tdiv_neg, Int.tdiv_one, Spec.iword,
      BitVec.ofInt_neg, sgn_eq_toInt, BitVec.ofInt_toInt]
    simp
  split at h
  · rename_i h0
    cases h; cases hb _ h0
    refine ⟨congrArg some ?_, rfl⟩
    have hm : Spec.sgn a = -2 ^ 255 ↔ a = intMin := by
      constructor
      · intro e; rw [← iword_sgn a, e]; decide
      · intro e; rw [e, sgn_intMin]
    rw [Spec.sdiv, sgn_intMin, if_neg (by omega)]
    by_cases h1 : a = intMin
    · subst h1; rw [sgn_intMin]; decide
    · have h2 : Spec.sgn a ≠ -2 ^ 255 := fun e => h1 (hm.1 e)
      have e1 : (Spec.sgn a).tdiv (-2 ^ 255) = 0 := by
        rw [Int.tdiv_neg]
        have hlt := word_toNat_lt a
        rcases Int.natAbs_eq (Spec.sgn a) with e | e
        · rw [e, Int.tdiv_eq_zero_of_lt (by omega) (by unfold Spec.sgn at *; split at * <;> omega)]; rfl
        · rw [e, Int.neg_tdiv, Int.tdiv_eq_zero_of_lt (by omega) (by unfold Spec.sgn at *; split at * <;> omega)]; rfl
      rw [e1]
      simp only [IR.ieq, h1, decide_false]; rfl
  split at h
  · rename_i h0
    cases h; cases ha _ h0
    rw [sdiv_zero_left]; exact ⟨rfl, rfl⟩
  · simp at h

theorem peepholeSmod_spec {ca cb : Option Word} {a b : Word} {p : Peep}
    (ha : ∀ w, ca = some w → w = a) (hb : ∀ w, cb = some w → w = b)
    (h : peepholeSmod ca cb = some p) :
    p.value = some (Spec.smod a b) ∧ p.payExpGas = false := by
  unfold peepholeSmod at h
  split at h
  · rename_i h0
    cases h
    rcases h0 with h0 | h0 | h0 <;> cases hb _ h0 <;> refine ⟨congrArg some ?_, rfl⟩
    · rfl
    · rw [Spec.smod, sgn_one, if_neg (by omega), Int.tmod_one]; rfl
    · rw [Spec.smod, sgn_allOnes, if_neg (by omega), Int.tmod_neg, Int.tmod_one]; rfl
  split at h
  · rename_i h0
    cases h; cases ha _ h0
    rw [smod_zero_left]; exact ⟨rfl, rfl⟩
  · simp at h

theorem peepholeAddmod_spec {ca cb cn : Option Word} {a b n : Word} {p : Peep}
    (ha : ∀ w, ca = some w → w = a) (hb : ∀ w, cb = some w → w = b)
    (hn : ∀ w, cn = some w → w = n)
    (h : peepholeAddmod ca cb cn = some p) :
    p.value = some (Spec.addmod a b n) ∧ p.payExpGas = false := by
  have h1 : (1 : Word).toNat = 1 := rfl
  have hz : (0 : Word).toNat = 0 := rfl
  unfold peepholeAddmod at h
  split at h
  · rename_i h0
    cases h
    rcases h0 with h0 | h0 <;> cases hn _ h0 <;> refine ⟨congrArg some ?_, rfl⟩
    · rfl
    · rw [Spec.addmod, h1, if_neg (by omega), Nat.mod_one]; rfl
  split at h
  · rename_i h0
    cases h; cases ha _ h0.1; cases hb _ h0.2
    refine ⟨congrArg some ?_, rfl⟩
    rw [Spec.addmod, hz, Nat.add_zero, Nat.zero_mod]
    split <;> rfl
  · simp at h

theorem peepholeMulmod_spec {ca cb cn : Option Word} {a b n : Word} {p : Peep}
    (ha : ∀ w, ca = some w → w = a) (hb : ∀ w, cb = some w → w = b)
    (hn : ∀ w, cn = some w → w = n)
    (h : peepholeMulmod ca cb cn = some p) :
    p.value = some (Spec.mulmod a b n) ∧ p.payExpGas = false := by
  have h1 : (1 : Word).toNat = 1 := rfl
  have hz : (0 : Word).toNat = 0 := rfl
  unfold peepholeMulmod at h
  split at h
  · rename_i h0
    cases h
    rcases h0 with h0 | h0 <;> cases hn _ h0 <;> refine ⟨congrArg some ?_, rfl⟩
    · rfl
    · rw [Spec.mulmod, h1, if_neg (by omega), Nat.mod_one]; rfl
  split at h
  · rename_i h0
    cases h
    refine ⟨congrArg some ?_, rfl⟩
    rcases h0 with h0 | h0
    · cases ha _ h0
      rw [Spec.mulmod, hz, Nat.zero_mul, Nat.zero_mod]
      split <;> rfl
    · cases hb _ h0
      rw [Spec.mulmod, hz, Nat.mul_zero, Nat.zero_mod]
      split <;> rfl
  · simp at h

theorem exp_zero_base (b : Word) (h : b ≠ 0) : Spec.exp 0 b = 0 := by
  have hz : (0 : Word).toNat = 0 := rfl
  rw [Spec.exp, hz, Nat.zero_pow (Nat.pos_of_ne_zero (fun e => h ((toNat_eq_zero b).1 e)))]; rfl

theorem exp_allOnes (b : Word) :
    Spec.exp (BitVec.allOnes 256) b = if b.toNat % 2 = 0 then 1 else BitVec.allOnes 256 := by
  have key : ∀ n, (BitVec.allOnes 256).toNat ^ n % 2 ^ 256 =
      if n % 2 = 0 then 1 else 2 ^ 256 - 1 := by
    intro n
    induction n with
    | zero => rfl
    | succ n ih =>
      have e : (BitVec.allOnes 256).toNat = 2 ^ 256 - 1 := by decide
      rw [Nat.pow_succ, Nat.mul_mod, ih, e]
      by_cases h : n % 2 = 0
      · rw [if_pos h, if_neg (by omega)]
      · rw [if_neg h, if_pos (by omega)]
  apply BitVec.eq_of_toNat_eq
  rw [Spec.exp, toNat_word', key]
  split <;> rfl

theorem exp_two_pow (base b : Word) (k : Nat) (hk : base.toNat = 2 ^ k) :
    Spec.exp base b = if k * b.toNat < 256 then 1#256 <<< (k * b.toNat) else 0 := by
  rw [Spec.exp, hk, ← Nat.pow_mul]
  symm
  rw [eq_word_iff]
  split
  · rw [BitVec.toNat_shiftLeft, Nat.shiftLeft_eq]
    simp
  · rename_i h
    have : k * b.toNat = 256 + (k * b.toNat - 256) := by omega
    rw [this, Nat.pow_add, Nat.mul_mod_right]; rfl

theorem peepholeExp_spec {ca cb : Option Word} {a b : Word} {p : Peep}
    (ha : ∀ w, ca = some w → w = a) (hb : ∀ w, cb = some w → w = b)
    (h : peepholeExp ca cb (some a) (some b) = some p) :
    p.value = some (Spec.exp a b) ∧ p.payExpGas = cb.isNone := by
  unfold peepholeExp at h
  split at h
  · rename_i e
    cases hb _ rfl
    have h0 : (0 : Word).toNat = 0 := rfl
    have h1 : (1 : Word).toNat = 1 := rfl
    have h2 : (2 : Word).toNat = 2 := rfl
    split at h
    · rename_i he; subst he; cases h
      refine ⟨congrArg some ?_, rfl⟩
      rw [Spec.exp, h0, Nat.pow_zero]; rfl
    split at h
    · rename_i he; subst he; cases h
      refine ⟨congrArg some ?_, rfl⟩
      rw [Spec.exp, h1, Nat.pow_one, word_toNat]
    split at h
    · rename_i he; subst he; cases h
      refine ⟨congrArg some ?_, rfl⟩
      rw [Spec.exp, h2, Nat.pow_two, eq_word_iff, BitVec.toNat_mul]
    · simp at h
  · split at h
    · rename_i base
      cases ha _ rfl
      split at h
      · rename_i he; subst he; cases h
        refine ⟨?_, rfl⟩
        simp only [IR.icmp, IR.const, IR.ieq]
        by_cases hb0 : b = 0
        · subst hb0; rfl
        · rw [decide_eq_false hb0, exp_zero_base b hb0]; rfl
      split at h
      · rename_i he; subst he; cases h
        refine ⟨congrArg some ?_, rfl⟩
        have h1 : (1 : Word).toNat = 1 := rfl
        rw [Spec.exp, h1, Nat.one_pow]; rfl
      split at h
      · rename_i he; subst he; cases h
        refine ⟨?_, rfl⟩
        simp only [IR.bitand, IR.bin, IR.const, IR.icmp, IR.ieq]
        rw [exp_allOnes]
        have hand : (b &&& 1 = 0) ↔ b.toNat % 2 = 0 := by
          rw [← toNat_eq_zero, BitVec.toNat_and]
          have h1 : (1 : Word).toNat = 2 ^ 1 - 1 := rfl
          rw [h1, Nat.and_two_pow_sub_one_eq_mod]
        by_cases hev : b.toNat % 2 = 0
        · rw [if_pos hev, decide_eq_true (hand.2 hev)]; rfl
        · rw [if_neg hev, decide_eq_false (fun e => hev (hand.1 e))]; rfl
      split at h
      · rename_i hb0 hb1 _ hp
        obtain ⟨k, hk, he⟩ := (isPowerOfTwo_iff a).1 hp
        cases h
        refine ⟨?_, rfl⟩
        have hk0 : 0 < k := by
          rcases Nat.eq_zero_or_pos k with h0 | h0
          · subst h0
            exact absurd (BitVec.eq_of_toNat_eq (by rw [he]; rfl)) hb1
          · exact h0
        have htz : trailingZeros a.toNat 256 = k := by
          rw [he]; exact trailingZeros_two_pow k 256 hk
        simp only [htz]
        rw [exp_two_pow a b k he]
        simp only [IR.icmp, IR.const, IR.ult, BitVec.toNat_ofNat]
        have hth : (256 + k - 1) / k ≤ 256 := by
          rw [Nat.div_le_iff_le_mul_add_pred hk0]
          have : 256 ≤ k * 256 := Nat.le_mul_of_pos_left _ hk0
          omega
        rw [Nat.mod_eq_of_lt (show (256 + k - 1) / k < 2 ^ 256 by omega)]
        have hiff : b.toNat < (256 + k - 1) / k ↔ k * b.toNat < 256 := by
          rw [Nat.lt_div_iff_mul_lt hk0, Nat.mul_comm]; omega
        by_cases hin : k * b.toNat < 256
        · rw [decide_eq_true (hiff.2 hin), if_pos hin]
          simp only [IR.select]
          split
          · rename_i h1
            simp only [IR.ishl]
            rw [h1, Nat.one_mul] at hin ⊢
            rw [if_pos hin]
            rfl
          · have hm : (b * BitVec.ofNat 256 k).toNat = k * b.toNat := by
              rw [BitVec.toNat_mul, BitVec.toNat_ofNat, Nat.mod_eq_of_lt (show k < 2 ^ 256 by omega),
                Nat.mul_comm, Nat.mod_eq_of_lt (by omega)]
            simp only [IR.imul, IR.bin, IR.ishl]
            rw [hm, if_pos hin]
            rfl
        · rw [decide_eq_false (fun e => hin (hiff.1 e)), if_neg hin]
          rfl
      · simp at h
    · simp at h

theorem peepholeSignextend_spec {ca : Option Word} {a b : Word} {p : Peep}
    (ha : ∀ w, ca = some w → w = a) (h : peepholeSignextend ca (some b) = some p) :
    p.value = some (Spec.signextend a b) ∧ p.payExpGas = false := by
  unfold peepholeSignextend at h
  split at h
  · cases ha _ rfl
    split at h
    · rename_i h31
      cases h
      refine ⟨congrArg some ?_, rfl⟩
      rw [Spec.signextend, if_neg (by omega)]
    · simp at h
  · simp at h

theorem peepholeByte_spec {ca : Option Word} {a b : Word} {p : Peep}
    (ha : ∀ w, ca = some w → w = a) (h : peepholeByte ca = some p) :
    p.value = some (Spec.byte a b) ∧ p.payExpGas = false := by
  unfold peepholeByte at h
  split at h
  · cases ha _ rfl
    split at h
    · rename_i h31
      cases h
      refine ⟨congrArg some ?_, rfl⟩
      rw [Spec.byte, if_neg (by omega)]
    · simp at h
  · simp at h

end Verif
