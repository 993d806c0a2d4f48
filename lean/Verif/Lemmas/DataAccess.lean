import Verif.Spec.DataAccess
/-!
# Lemmas: data access
-/

namespace Verif.Builtins

theorem foldl_append_zero (n a : Nat) :
    (List.replicate n (0:UInt8)).foldl (fun acc b => acc * 256 + b.toNat) a = a * 256 ^ n := by
  induction n generalizing a with
  | zero => simp
  | succ n ih => rw [List.replicate_succ, List.foldl_cons, ih, Nat.pow_succ]; simp [Nat.mul_assoc, Nat.mul_comm 256]

theorem foldl_take (data : List UInt8) (off n : Nat) :
    ((data.drop off).take n ++ List.replicate (n - (data.length - off)) (0:UInt8)).foldl
      (fun acc b => acc * 256 + b.toNat) 0 = Spec.dataWord data off n := by
  have key := fun (tail : List UInt8) (n : Nat) => Verif.padTake_succ tail n
  have h : (data.drop off).take n ++ List.replicate (n - (data.length - off)) (0:UInt8)
      = Verif.padTake (data.drop off) n := by
    unfold Verif.padTake; rw [List.length_drop]
  rw [h]
  clear h
  induction n with
  | zero => simp [Verif.padTake, Spec.dataWord]
  | succ n ih =>
    rw [key, List.foldl_append, ih]
    simp only [List.foldl_cons, List.foldl_nil, Spec.dataWord, Verif.Spec.codeByte, List.getElem?_drop]
    cases data[off + n]? <;> rfl

theorem dataWord_lt (data : List UInt8) (off n : Nat) : Spec.dataWord data off n < 256 ^ n := by
  induction n with
  | zero => simp [Spec.dataWord]
  | succ n ih =>
    have : Verif.Spec.codeByte data (off + n) < 256 := by
      unfold Verif.Spec.codeByte
      split
      · exact UInt8.toNat_lt _
      · omega
    rw [Spec.dataWord, Nat.pow_succ]; omega

theorem dataWord_beyond (data : List UInt8) (off n : Nat) (h : data.length ≤ off) :
    Spec.dataWord data off n = 0 := by
  induction n with
  | zero => rfl
  | succ n ih =>
    rw [Spec.dataWord, ih, Verif.Spec.codeByte, List.getElem?_eq_none (by omega)]; rfl

theorem load_eq (input : List UInt8) (off : Nat) :
    (fromBeSlice (if off < input.length then
      (input.drop off).take (min 32 (input.length - off)) ++
        List.replicate (32 - min 32 (input.length - off)) 0
      else List.replicate 32 0)).toNat = Spec.dataWord input off 32 := by
  unfold fromBeSlice
  rw [BitVec.toNat_ofNat]
  by_cases h : off < input.length
  · rw [if_pos h]
    have e : (input.drop off).take (min 32 (input.length - off)) = (input.drop off).take 32 := by
      by_cases h2 : 32 ≤ input.length - off
      · rw [Nat.min_eq_left h2]
      · rw [Nat.min_eq_right (by omega), List.take_of_length_le (by simp),
          List.take_of_length_le (by simp; omega)]
    rw [e, show 32 - min 32 (input.length - off) = 32 - (input.length - off) by omega, foldl_take]
    exact Nat.mod_eq_of_lt (dataWord_lt input off 32)
  · rw [if_neg h, dataWord_beyond _ _ _ (by omega), foldl_append_zero]

theorem satUsize_eq (w : Word) : satUsize w = min w.toNat (2 ^ 64 - 1) := by
  rfl

end Verif.Builtins
