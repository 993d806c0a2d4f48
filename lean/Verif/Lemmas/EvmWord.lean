import Verif.Spec.EvmWord
/-!
# Byte strings as numbers
-/

namespace Verif.EvmWord

open Spec

theorem bigEndian_snoc (b : Bytes) (x : UInt8) : bigEndian (b ++ [x]) = bigEndian b * 256 + x.toNat := by
  simp [bigEndian, List.foldl_append]

theorem littleEndian_cons (x : UInt8) (b : Bytes) :
    littleEndian (x :: b) = x.toNat + 256 * littleEndian b := by
  simp only [littleEndian, List.reverse_cons, bigEndian_snoc]
  omega

theorem ofLe_eq (b : Bytes) : ofLe b = littleEndian b := by
  induction b with
  | nil => rfl
  | cons x b ih => rw [littleEndian_cons, ofLe, ih]

theorem ofLe_reverse (b : Bytes) : ofLe b.reverse = bigEndian b := by
  rw [ofLe_eq, littleEndian, List.reverse_reverse]

theorem ofLe_lt (b : Bytes) : ofLe b < 256 ^ b.length := by
  induction b with
  | nil => decide
  | cons x b ih =>
    have hx := x.toNat_lt
    simp only [ofLe, List.length_cons, Nat.pow_succ]
    omega

theorem ofLe_append (a b : Bytes) : ofLe (a ++ b) = ofLe a + 256 ^ a.length * ofLe b := by
  induction a with
  | nil => simp [ofLe]
  | cons x a ih =>
    simp only [List.cons_append, ofLe, ih, List.length_cons, Nat.pow_succ, Nat.mul_add, Nat.add_assoc]
    rw [Nat.mul_comm (256 ^ a.length) 256, Nat.mul_assoc]

theorem toLe_length (n v : Nat) : (toLe n v).length = n := by
  induction n generalizing v with
  | zero => rfl
  | succ n ih => simp [toLe, ih]

theorem ofLe_toLe (n v : Nat) : ofLe (toLe n v) = v % 256 ^ n := by
  induction n generalizing v with
  | zero => simp [toLe, ofLe, Nat.mod_one]
  | succ n ih =>
    simp only [toLe, ofLe, ih, UInt8.toNat_ofNat']
    rw [show 256 ^ (n + 1) = 256 * 256 ^ n by rw [Nat.pow_succ, Nat.mul_comm], Nat.mod_mul]

theorem toLe_ofLe (b : Bytes) : toLe b.length (ofLe b) = b := by
  induction b with
  | nil => rfl
  | cons x b ih =>
    have hx := x.toNat_lt
    simp only [List.length_cons, toLe, ofLe]
    have h1 : (x.toNat + 256 * ofLe b) / 256 = ofLe b := by omega
    have h2 : UInt8.ofNat (x.toNat + 256 * ofLe b) = x := by
      apply UInt8.toNat_inj.1
      rw [UInt8.toNat_ofNat']
      omega
    rw [h1, h2, ih]

theorem ofLe_inj {a b : Bytes} (h : a.length = b.length) (e : ofLe a = ofLe b) : a = b := by
  rw [← toLe_ofLe a, ← toLe_ofLe b, h, e]

theorem cast_length (u : Nat) : (castFromU256 .little u).length = 32 := by
  simp [castFromU256, limbs, limbBytes, toLe_length]

theorem ofLe_cast (u : Nat) (h : u < 2 ^ 256) : ofLe (castFromU256 .little u) = u := by
  simp only [castFromU256, limbs, limbBytes, List.flatMap_cons, List.flatMap_nil, List.append_nil,
    ofLe_append, ofLe_toLe, toLe_length]
  omega

theorem cast_eq (w : Bytes) (h : w.length = 32) : castToU256 .little w = ofLe w := by
  have e : w = w.take 8 ++ ((w.drop 8).take 8 ++ ((w.drop 16).take 8 ++ (w.drop 24).take 8)) := by
    rw [show w.drop 16 = (w.drop 8).drop 8 by rw [List.drop_drop],
      show w.drop 24 = ((w.drop 8).drop 8).drop 8 by rw [List.drop_drop, List.drop_drop],
      show (((w.drop 8).drop 8).drop 8).take 8 = ((w.drop 8).drop 8).drop 8 from
        List.take_of_length_le (by simp [h]), List.take_append_drop, List.take_append_drop,
      List.take_append_drop]
  rw [castToU256]
  simp only [limbOf]
  conv => rhs; rw [e]
  simp only [ofLe_append, List.length_take, List.length_drop, h, show min 8 32 = 8 from rfl,
    show min 8 (32 - 8) = 8 from rfl, show min 8 (32 - 16) = 8 from rfl, Nat.reducePow]
  omega

theorem value_lt (e : Endian) (w : Bytes) (h : w.length = 32) : value e w < 2 ^ 256 := by
  cases e
  · show littleEndian w < _
    rw [← ofLe_eq]
    have := ofLe_lt w
    rw [h] at this
    exact this
  · show bigEndian w < _
    rw [← ofLe_reverse]
    have := ofLe_lt w.reverse
    rw [List.length_reverse, h] at this
    exact this

/-- A word is determined by its value. -/
theorem value_inj (e : Endian) {a b : Bytes} (ha : a.length = b.length) (h : value e a = value e b) :
    a = b := by
  cases e
  · exact ofLe_inj ha (by rw [ofLe_eq, ofLe_eq]; exact h)
  · have : a.reverse = b.reverse := ofLe_inj (by simpa using ha) (by
      rw [ofLe_reverse, ofLe_reverse]; exact h)
    simpa using this

end Verif.EvmWord
