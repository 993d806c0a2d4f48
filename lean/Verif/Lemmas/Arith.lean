import Verif.Spec.Arith
import Verif.Model.ConstFold
/-!
# Lemmas relating the word-level arithmetic of the model to the integer specification
-/

namespace Verif
open U256

theorem word_toNat_lt (x : Word) : x.toNat < 2 ^ 256 := x.isLt

theorem toNat_word {n : Nat} (h : n < 2 ^ 256) : (Spec.word n).toNat = n := by
  simp [Spec.word, BitVec.toNat_ofNat, Nat.mod_eq_of_lt h]

theorem toNat_word' (n : Nat) : (Spec.word n).toNat = n % 2 ^ 256 := by
  simp [Spec.word, BitVec.toNat_ofNat]

theorem word_toNat (x : Word) : Spec.word x.toNat = x := by
  simp [Spec.word]

theorem eq_word_iff (x : Word) (n : Nat) : x = Spec.word n ↔ x.toNat = n % 2 ^ 256 := by
  rw [← toNat_word', BitVec.toNat_inj]

theorem iword_natCast (n : Nat) : Spec.iword (n : Int) = Spec.word n := by
  apply BitVec.eq_of_toNat_eq
  rw [Spec.iword, Spec.word, BitVec.toNat_ofInt, BitVec.toNat_ofNat]
  omega

theorem sgn_eq_toInt (x : Word) : Spec.sgn x = x.toInt := by
  rw [BitVec.toInt_eq_toNat_cond, Spec.sgn]
  have := word_toNat_lt x
  split <;> split <;> omega

theorem iword_sgn (x : Word) : Spec.iword (Spec.sgn x) = x := by
  rw [sgn_eq_toInt, Spec.iword, BitVec.ofInt_toInt]

theorem sgn_eq_zero (x : Word) : Spec.sgn x = 0 ↔ x = 0 := by
  have := word_toNat_lt x
  rw [← BitVec.toNat_inj, Spec.sgn]
  simp only [BitVec.ofNat_eq_ofNat, BitVec.toNat_ofNat, Nat.zero_mod]
  split <;> omega

theorem toNat_eq_zero (x : Word) : x.toNat = 0 ↔ x = 0 := by
  rw [← BitVec.toNat_inj]; simp

theorem msb_iff (x : Word) : x.getLsbD 255 = true ↔ 2 ^ 255 ≤ x.toNat := by
  have h := BitVec.msb_eq_decide x
  rw [BitVec.msb_eq_getLsbD_last] at h
  simp only [Nat.reduceSub] at h
  rw [h]; simp

theorem twoCompl_toNat (x : Word) : (twoCompl x).toNat = (2 ^ 256 - x.toNat) % 2 ^ 256 := by
  unfold twoCompl
  rw [BitVec.toNat_sub]
  simp

theorem twoCompl_eq_neg (x : Word) : twoCompl x = -x := by
  unfold twoCompl; simp

theorem sign_minus (x : Word) : sign x = .minus ↔ 2 ^ 255 ≤ x.toNat := by
  unfold sign
  rw [← msb_iff]
  split
  · simp [*]
  · rename_i h
    simp only [h]
    split <;> simp

theorem sign_zero (x : Word) : sign x = .zero ↔ x = 0 := by
  unfold sign
  constructor
  · intro h
    split at h
    · simp at h
    · split at h
      · assumption
      · simp at h
  · rintro rfl; simp

theorem intMin_toNat : intMin.toNat = 2 ^ 255 := by decide

/-- Absolute value produced by `i256_sign_compl`. -/
theorem signCompl_abs (x : Word) : ((signCompl x).2).toNat = (Spec.sgn x).natAbs := by
  unfold signCompl Spec.sgn
  dsimp only
  have := word_toNat_lt x
  by_cases h : 2 ^ 255 ≤ x.toNat
  · rw [if_pos ((sign_minus x).2 h), if_neg (by omega), twoCompl_toNat]
    omega
  · rw [if_neg (fun h' => h ((sign_minus x).1 h')), if_pos (by omega)]
    omega

theorem removeSign_toNat (x : Word) : (removeSign x).toNat = x.toNat % 2 ^ 255 := by
  unfold removeSign
  rw [BitVec.toNat_and]
  have : (intMin - 1).toNat = 2 ^ 255 - 1 := by decide
  rw [this, Nat.and_two_pow_sub_one_eq_mod]

theorem iword_neg_natCast (n : Nat) : Spec.iword (-(n : Int)) = twoCompl (Spec.word n) := by
  rw [twoCompl_eq_neg, ← iword_natCast, Spec.iword, Spec.iword, BitVec.ofInt_neg]

theorem sgn_cases (x : Word) :
    (Spec.sgn x = ((Spec.sgn x).natAbs : Int) ∧ ¬ sign x = .minus ∧ (Spec.sgn x).natAbs < 2 ^ 255) ∨
    (Spec.sgn x = -((Spec.sgn x).natAbs : Int) ∧ sign x = .minus ∧ (Spec.sgn x).natAbs ≤ 2 ^ 255 ∧
      0 < (Spec.sgn x).natAbs) := by
  have := word_toNat_lt x
  rw [sign_minus]
  unfold Spec.sgn
  split <;> omega

theorem i256Div_spec (a b : Word) : i256Div a b = Spec.sdiv a b := by
  unfold i256Div Spec.sdiv
  have ha := signCompl_abs a
  have hb := signCompl_abs b
  have hsa : (signCompl a).1 = sign a := rfl
  have hsb : (signCompl b).1 = sign b := rfl
  generalize hca : signCompl a = ca at *
  generalize hcb : signCompl b = cb at *
  obtain ⟨s1, x⟩ := ca
  obtain ⟨s2, y⟩ := cb
  dsimp only at *
  subst hsa hsb
  by_cases hz : sign b = .zero
  · rw [if_pos hz, if_pos ((sgn_eq_zero b).2 ((sign_zero b).1 hz))]
  have hb0 : ¬ Spec.sgn b = 0 := fun h => hz ((sign_zero b).2 ((sgn_eq_zero b).1 h))
  rw [if_neg hz, if_neg hb0]
  have hxy : (x / y).toNat = x.toNat / y.toNat := BitVec.toNat_udiv
  have hy1 : ∀ n : Nat, n / (Spec.sgn b).natAbs ≤ n := fun n => Nat.div_le_self _ _
  have hsmall : ¬ (sign a = .minus ∧ x = intMin ∧ y = 1) →
      (Spec.sgn a).natAbs / (Spec.sgn b).natAbs < 2 ^ 255 := by
    intro hn
    rcases sgn_cases a with ⟨_, h2, h3⟩ | ⟨_, h2, h3, h4⟩
    · exact Nat.lt_of_le_of_lt (hy1 _) h3
    · by_cases hm : (Spec.sgn a).natAbs = 2 ^ 255
      · have hy : y ≠ 1 := by
          intro h
          exact hn ⟨h2, BitVec.eq_of_toNat_eq (by rw [ha, hm, intMin_toNat]), h⟩
        have : (Spec.sgn b).natAbs ≠ 1 := by
          intro h
          apply hy
          apply BitVec.eq_of_toNat_eq
          rw [hb, h]; rfl
        have h2 : 2 ≤ (Spec.sgn b).natAbs := by omega
        have : (Spec.sgn a).natAbs / (Spec.sgn b).natAbs ≤ (Spec.sgn a).natAbs / 2 :=
          Nat.div_le_div_left h2 (by omega)
        omega
      · exact Nat.lt_of_le_of_lt (hy1 _) (by omega)
  by_cases hmin : sign a = .minus ∧ x = intMin ∧ y = 1
  · rw [if_pos hmin]
    obtain ⟨h1, h2, h3⟩ := hmin
    have hxa : (Spec.sgn a).natAbs = 2 ^ 255 := by rw [← ha, h2, intMin_toNat]
    have hyb : (Spec.sgn b).natAbs = 1 := by rw [← hb, h3]; rfl
    rcases sgn_cases a with ⟨_, h', _⟩ | ⟨ha', _, _⟩
    · exact absurd h1 h'
    rw [ha', hxa]
    rcases Int.natAbs_eq (Spec.sgn b) with hb' | hb' <;> rw [hb', hyb] <;> decide
  · rw [if_neg hmin]
    have hd := hsmall hmin
    have hd' : removeSign (x / y) = Spec.word ((Spec.sgn a).natAbs / (Spec.sgn b).natAbs) := by
      apply BitVec.eq_of_toNat_eq
      rw [removeSign_toNat, hxy, ha, hb, toNat_word (by omega), Nat.mod_eq_of_lt hd]
    rw [hd']
    rcases sgn_cases a with ⟨ha', h1, _⟩ | ⟨ha', h1, _⟩ <;>
      rcases sgn_cases b with ⟨hb', h2, _⟩ | ⟨hb', h2, _⟩ <;>
      rw [ha', hb'] <;>
      simp only [Int.natAbs_natCast, Int.natAbs_neg, h1, h2, Int.neg_tdiv, Int.tdiv_neg, Int.neg_neg,
        ne_eq, not_true, not_false_iff, and_true, and_false,
        or_false, false_or, true_and, false_and, if_true, if_false, reduceCtorEq]
    · rw [← Int.ofNat_tdiv, iword_natCast]
    · rw [← Int.ofNat_tdiv, iword_neg_natCast]
    · rw [← Int.ofNat_tdiv, iword_neg_natCast]
    · rw [← Int.ofNat_tdiv, iword_natCast]

theorem i256Mod_spec (a b : Word) : i256Mod a b = Spec.smod a b := by
  unfold i256Mod Spec.smod
  have ha := signCompl_abs a
  have hb := signCompl_abs b
  have hsa : (signCompl a).1 = sign a := rfl
  have hsb : (signCompl b).1 = sign b := rfl
  generalize hca : signCompl a = ca at *
  generalize hcb : signCompl b = cb at *
  obtain ⟨s1, x⟩ := ca
  obtain ⟨s2, y⟩ := cb
  dsimp only at *
  subst hsa hsb
  by_cases hza : sign a = .zero
  · have : Spec.sgn a = 0 := (sgn_eq_zero a).2 ((sign_zero a).1 hza)
    rw [if_pos hza, this, Int.zero_tmod]
    split
    · rfl
    · rfl
  rw [if_neg hza]
  by_cases hz : sign b = .zero
  · rw [if_pos hz, if_pos ((sgn_eq_zero b).2 ((sign_zero b).1 hz))]
  have hb0 : ¬ Spec.sgn b = 0 := fun h => hz ((sign_zero b).2 ((sgn_eq_zero b).1 h))
  rw [if_neg hz, if_neg hb0]
  have hxy : (x % y).toNat = x.toNat % y.toNat := BitVec.toNat_umod
  have hbpos : 0 < (Spec.sgn b).natAbs := by omega
  have hble : (Spec.sgn b).natAbs ≤ 2 ^ 255 := by
    rcases sgn_cases b with ⟨_, _, h⟩ | ⟨_, _, h, _⟩ <;> omega
  have hlt := Nat.mod_lt (Spec.sgn a).natAbs hbpos
  have hd' : removeSign (x % y) = Spec.word ((Spec.sgn a).natAbs % (Spec.sgn b).natAbs) := by
    apply BitVec.eq_of_toNat_eq
    rw [removeSign_toNat, hxy, ha, hb, toNat_word (by omega), Nat.mod_eq_of_lt (by omega)]
  rw [hd']
  rcases sgn_cases a with ⟨ha', h1, _⟩ | ⟨ha', h1, _⟩ <;>
    rcases sgn_cases b with ⟨hb', h2, _⟩ | ⟨hb', h2, _⟩ <;>
    rw [ha', hb'] <;>
    simp only [Int.natAbs_natCast, Int.natAbs_neg, h1, Int.neg_tmod, Int.tmod_neg, if_true, if_false]
  · rw [← Int.ofNat_tmod, iword_natCast]
  · rw [← Int.ofNat_tmod, iword_natCast]
  · rw [← Int.ofNat_tmod, iword_neg_natCast]
  · rw [← Int.ofNat_tmod, iword_neg_natCast]

theorem sign_rank (x : Word) : (sign x).rank = if 2 ^ 255 ≤ x.toNat then 0 else if x.toNat = 0 then 1 else 2 := by
  by_cases h : 2 ^ 255 ≤ x.toNat
  · rw [(sign_minus x).2 h, if_pos h]; rfl
  · rw [if_neg h]
    by_cases h0 : x.toNat = 0
    · rw [if_pos h0, (sign_zero x).2 ((toNat_eq_zero x).1 h0)]; rfl
    · rw [if_neg h0]
      have h1 : ¬ sign x = .minus := fun e => h ((sign_minus x).1 e)
      have h2 : ¬ sign x = .zero := fun e => h0 ((toNat_eq_zero x).2 ((sign_zero x).1 e))
      revert h1 h2
      cases sign x <;> simp [Sign.rank]

theorem i256Cmp_lt (a b : Word) : i256Cmp a b = .lt ↔ Spec.sgn a < Spec.sgn b := by
  have := word_toNat_lt a
  have := word_toNat_lt b
  unfold i256Cmp
  rw [sign_rank, sign_rank]
  simp only [BitVec.lt_def, Spec.sgn]
  grind

theorem i256Cmp_gt (a b : Word) : i256Cmp a b = .gt ↔ Spec.sgn b < Spec.sgn a := by
  have := word_toNat_lt a
  have := word_toNat_lt b
  unfold i256Cmp
  rw [sign_rank, sign_rank]
  simp only [BitVec.lt_def, Spec.sgn]
  grind

theorem powLoop_spec (r b : Word) (e : Nat) : powLoop r b e = Spec.word (r.toNat * b.toNat ^ e) := by
  fun_induction powLoop r b e with
  | case1 r b => simp [Spec.word]
  | case2 r b e h ih =>
    simp only [dite_eq_ite] at ih
    rw [ih]
    rw [eq_word_iff, toNat_word', BitVec.toNat_mul]
    have he : b.toNat ^ e = (b.toNat * b.toNat) ^ (e / 2) * b.toNat ^ (e % 2) := by
      rw [← Nat.pow_two, ← Nat.pow_mul, ← Nat.pow_add, Nat.div_add_mod]
    rw [Nat.mul_mod, Nat.pow_mod, Nat.mod_mod, ← Nat.pow_mod, ← Nat.mul_mod, he]
    split
    · rename_i h1
      rw [h1, BitVec.toNat_mul, Nat.mul_mod, Nat.mod_mod, ← Nat.mul_mod, Nat.pow_one]
      congr 1
      rw [Nat.mul_assoc, Nat.mul_comm b.toNat]
    · rename_i h1
      have : e % 2 = 0 := by omega
      rw [this]; simp

theorem pow_spec (a b : Word) : pow a b = Spec.exp a b := by
  unfold pow Spec.exp
  rw [powLoop_spec]; simp

theorem addMod_spec (a b n : Word) : addMod a b n = Spec.addmod a b n := by
  unfold addMod Spec.addmod
  by_cases h : n = 0
  · rw [if_pos h, if_pos ((toNat_eq_zero n).2 h)]
  have h0 : ¬ n.toNat = 0 := fun e => h ((toNat_eq_zero n).1 e)
  rw [if_neg h, if_neg h0]
  have hn := word_toNat_lt n
  have hx := Nat.mod_lt a.toNat (Nat.pos_of_ne_zero h0)
  have hy := Nat.mod_lt b.toNat (Nat.pos_of_ne_zero h0)
  have hs : (a.toNat + b.toNat) % n.toNat =
      if n.toNat ≤ a.toNat % n.toNat + b.toNat % n.toNat then
        a.toNat % n.toNat + b.toNat % n.toNat - n.toNat
      else a.toNat % n.toNat + b.toNat % n.toNat := by
    rw [Nat.add_mod]
    split
    · rename_i hge
      rw [Nat.mod_eq_sub_mod hge, Nat.mod_eq_of_lt (by omega)]
    · exact Nat.mod_eq_of_lt (by omega)
  have hmlt := Nat.mod_lt (a.toNat + b.toNat) (Nat.pos_of_ne_zero h0)
  apply BitVec.eq_of_toNat_eq
  rw [toNat_word (by omega), hs]
  simp only [BitVec.toNat_umod, BitVec.le_def, Bool.or_eq_true, decide_eq_true_eq]
  have hr : (a % n + b % n).toNat = (a.toNat % n.toNat + b.toNat % n.toNat) % 2 ^ 256 := by
    rw [BitVec.toNat_add, BitVec.toNat_umod, BitVec.toNat_umod]
  rw [hr]
  generalize a.toNat % n.toNat = x at *
  generalize b.toNat % n.toNat = y at *
  split
  · rw [BitVec.toNat_sub, hr]
    split <;> omega
  · rw [hr]
    split <;> omega

theorem mulMod_spec (a b n : Word) : mulMod a b n = Spec.mulmod a b n := by
  unfold mulMod Spec.mulmod
  by_cases h : n = 0
  · rw [if_pos h, if_pos ((toNat_eq_zero n).2 h)]
  have h0 : ¬ n.toNat = 0 := fun e => h ((toNat_eq_zero n).1 e)
  rw [if_neg h, if_neg h0]
  have ha := word_toNat_lt a
  have hb := word_toNat_lt b
  have hn := word_toNat_lt n
  have hab : a.toNat * b.toNat < 2 ^ 512 := by
    have h512 : (2 : Nat) ^ 512 = 2 ^ 256 * 2 ^ 256 := by rw [← Nat.pow_add]
    rw [h512]; exact Nat.mul_lt_mul'' ha hb
  rw [eq_word_iff]
  simp only [BitVec.truncate_eq_setWidth, BitVec.zeroExtend_eq_setWidth, BitVec.toNat_setWidth,
    BitVec.toNat_umod, BitVec.toNat_mul]
  rw [Nat.mod_eq_of_lt (show a.toNat < 2 ^ 512 by omega), Nat.mod_eq_of_lt (show b.toNat < 2 ^ 512 by omega),
    Nat.mod_eq_of_lt (show n.toNat < 2 ^ 512 by omega), Nat.mod_eq_of_lt hab]

theorem iword_bmod (x : Word) (k : Nat) :
    Spec.iword (Int.bmod (x.toNat : Int) (2 ^ k)) = (x.setWidth k).signExtend 256 := by
  rw [BitVec.signExtend, BitVec.toInt_setWidth, Spec.iword]

theorem signextend_getLsbD (k x : Word) (h : k.toNat < 31) (i : Nat) :
    (Spec.signextend k x).getLsbD i =
      (decide (i < 256) && x.getLsbD (if i < 8 * k.toNat + 7 then i else 8 * k.toNat + 7)) := by
  unfold Spec.signextend
  rw [if_pos h, iword_bmod, BitVec.getLsbD_signExtend, BitVec.msb_eq_getLsbD_last]
  simp only [BitVec.getLsbD_setWidth]
  by_cases hi : i < 256 <;> simp only [hi, decide_true, decide_false, Bool.true_and, Bool.false_and]
  by_cases h1 : i < 8 * (k.toNat + 1)
  · rw [if_pos h1, decide_eq_true h1, Bool.true_and]
    by_cases h2 : i < 8 * k.toNat + 7
    · rw [if_pos h2]
    · rw [if_neg h2]; congr 1; omega
  · rw [if_neg h1, if_neg (by omega), decide_eq_true (by omega), Bool.true_and]
    congr 1

theorem foldSignextend_spec (k x : Word) : foldSignextend k x = Spec.signextend k x := by
  unfold foldSignextend
  by_cases h : k.toNat < 31
  · rw [if_pos (by rw [BitVec.lt_def]; simpa using h)]
    apply BitVec.eq_of_getLsbD_eq
    intro i hi
    rw [signextend_getLsbD k x h, decide_eq_true hi, Bool.true_and]
    dsimp only
    rw [Nat.mod_eq_of_lt (show k.toNat < 2 ^ 64 by omega)]
    have hmask : ∀ j, ((1#256 <<< (8 * k.toNat + 7)) - 1).getLsbD j = decide (j < 8 * k.toNat + 7) := by
      intro j
      rw [← BitVec.testBit_toNat]
      have : ((1#256 <<< (8 * k.toNat + 7)) - 1).toNat = 2 ^ (8 * k.toNat + 7) - 1 := by
        have hp : 2 ^ (8 * k.toNat + 7) < 2 ^ 256 := Nat.pow_lt_pow_right (by omega) (by omega)
        have hp1 : 1 ≤ 2 ^ (8 * k.toNat + 7) := Nat.one_le_two_pow
        rw [BitVec.toNat_sub, BitVec.toNat_shiftLeft]
        simp only [BitVec.toNat_ofNat, Nat.shiftLeft_eq, Nat.one_mod, Nat.one_mul, BitVec.ofNat_eq_ofNat]
        rw [Nat.mod_eq_of_lt (show 2 ^ (8 * k.toNat + 7) < 2 ^ 256 by omega)]
        simp only [Nat.reducePow, Nat.one_mod_eq_one.2, Nat.reduceMod] at *
        omega
      rw [this, Nat.testBit_two_pow_sub_one]
    split
    · rename_i hb
      simp only [BitVec.getLsbD_or, BitVec.getLsbD_not, hmask, hi, decide_true, Bool.true_and]
      by_cases h2 : i < 8 * k.toNat + 7
      · simp [h2]
      · simp [h2, hb]
    · rename_i hb
      simp only [BitVec.getLsbD_and, hmask]
      by_cases h2 : i < 8 * k.toNat + 7
      · simp [h2]
      · simpa [h2] using hb
  · rw [if_neg (by rw [BitVec.lt_def]; simpa using h), Spec.signextend, if_neg h]

theorem sat_small {a : Word} {n : Nat} (hn : n ≤ 2 ^ 64 - 1) (ha : a.toNat < n) :
    saturatingToUsize a = a.toNat := by
  unfold saturatingToUsize; omega

theorem sat_lt_iff {a : Word} {n : Nat} (hn : n ≤ 2 ^ 64 - 1) :
    saturatingToUsize a < n ↔ a.toNat < n := by
  unfold saturatingToUsize; omega

theorem foldByte_spec (i x : Word) : foldByte i x = Spec.byte i x := by
  unfold foldByte Spec.byte
  dsimp only
  by_cases h : i.toNat < 32
  · rw [if_pos ((sat_lt_iff (by omega)).2 h), if_pos h, sat_small (by omega) h, eq_word_iff]
    rw [BitVec.toNat_and, BitVec.toNat_ushiftRight, Nat.shiftRight_eq_div_pow]
    have : (0xff : Word).toNat = 2 ^ 8 - 1 := by decide
    rw [this, Nat.and_two_pow_sub_one_eq_mod, Nat.pow_mul]
    have : (2 : Nat) ^ 8 = 256 := rfl
    rw [this, Nat.mod_eq_of_lt (b := 2 ^ 256) (by omega)]
  · rw [if_neg (fun h' => h ((sat_lt_iff (by omega)).1 h')), if_neg h]

theorem shl_big {s x : Word} (h : ¬ s.toNat < 256) : Spec.shl s x = 0 := by
  unfold Spec.shl
  symm
  rw [eq_word_iff]
  have : s.toNat = 256 + (s.toNat - 256) := by omega
  rw [this, Nat.pow_add, ← Nat.mul_assoc, Nat.mul_comm x.toNat, Nat.mul_assoc, Nat.mul_mod_right]
  rfl

theorem shl_small {s x : Word} : x <<< s.toNat = Spec.shl s x := by
  unfold Spec.shl
  rw [eq_word_iff, BitVec.toNat_shiftLeft, Nat.shiftLeft_eq]

theorem shr_big {s x : Word} (h : ¬ s.toNat < 256) : Spec.shr s x = 0 := by
  unfold Spec.shr
  have hx := word_toNat_lt x
  have : 2 ^ 256 ≤ 2 ^ s.toNat := Nat.pow_le_pow_right (by omega) (by omega)
  rw [Nat.div_eq_of_lt (by omega)]; rfl

theorem shr_small {s x : Word} : x >>> s.toNat = Spec.shr s x := by
  unfold Spec.shr
  have hx := word_toNat_lt x
  rw [eq_word_iff, BitVec.toNat_ushiftRight, Nat.shiftRight_eq_div_pow, Nat.mod_eq_of_lt]
  exact Nat.lt_of_le_of_lt (Nat.div_le_self _ _) hx

theorem sar_small {s x : Word} : x.sshiftRight s.toNat = Spec.sar s x := by
  unfold Spec.sar
  rw [BitVec.sshiftRight, sgn_eq_toInt, Spec.iword, Int.shiftRight_eq_div_pow,
    Int.fdiv_eq_ediv_of_nonneg _ (by exact Int.pow_nonneg (by omega))]
  norm_cast

theorem sar_big {s x : Word} (h : ¬ s.toNat < 256) :
    Spec.sar s x = if 2 ^ 255 ≤ x.toNat then BitVec.allOnes 256 else 0 := by
  unfold Spec.sar
  have hx := word_toNat_lt x
  have hp : (2 : Int) ^ 256 ≤ 2 ^ s.toNat := by
    have : 2 ^ 256 ≤ 2 ^ s.toNat := Nat.pow_le_pow_right (by omega) (by omega)
    exact_mod_cast this
  rw [Int.fdiv_eq_ediv_of_nonneg _ (by omega)]
  generalize (2 : Int) ^ s.toNat = p at *
  unfold Spec.sgn
  split
  · rename_i h1
    rw [if_neg (by omega), Int.ediv_eq_zero_of_lt (by omega) (by omega)]; rfl
  · rename_i h1
    rw [if_pos (by omega)]
    have : ((x.toNat : Int) - 2 ^ 256) / p = -1 := by
      apply Int.ediv_eq_neg_one_of_neg_of_le <;> omega
    rw [this]; decide

theorem clz_spec (x : Word) : x.clz = Spec.clz x := by
  unfold Spec.clz
  by_cases h : x = 0
  · subst h; decide +kernel
  · have h0 : ¬ x.toNat = 0 := fun e => h ((toNat_eq_zero x).1 e)
    rw [if_neg h0, eq_word_iff]
    have h1 := BitVec.toNat_lt_two_pow_sub_clz (x := x)
    have h2 := BitVec.two_pow_sub_clz_le_toNat_of_ne_zero (x := x) (by omega) h
    have h3 := Nat.log2_self_le h0
    have h4 : x.toNat < 2 ^ (x.toNat.log2 + 1) := Nat.lt_log2_self
    have h5 : x.toNat.log2 < 256 - x.clz.toNat := (Nat.pow_lt_pow_iff_right (by omega)).1 (Nat.lt_of_le_of_lt h3 h1)
    have h6 : 256 - 1 - x.clz.toNat < x.toNat.log2 + 1 := (Nat.pow_lt_pow_iff_right (by omega)).1 (Nat.lt_of_le_of_lt h2 h4)
    omega

end Verif
