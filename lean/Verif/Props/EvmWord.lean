import Verif.Lemmas.EvmWord
/-!
# C65: stack words and stack buffers at the interface mean what the EVM means
-/

namespace Verif.EvmWord

open Spec

/-- A word with all bytes different, in memory order. -/
def sampleWord : Bytes := (List.range 32).map fun i => UInt8.ofNat (i + 1)

/-- **C65.** A word made from a number is what compiled code loads as that number, and gives the
number back; on either byte order. -/
theorem C65_u256 (e : Endian) (u : Nat) (h : u < 2 ^ 256) :
    (fromU256 e u).length = 32 ∧ value e (fromU256 e u) = u ∧ toU256 e (fromU256 e u) = u := by
  cases e
  · refine ⟨cast_length u, ?_, ?_⟩
    · show littleEndian (castFromU256 .little u) = u
      rw [← ofLe_eq, ofLe_cast u h]
    · show castToU256 .little (castFromU256 .little u) = u
      rw [cast_eq _ (cast_length u), ofLe_cast u h]
  · have hm : u % 256 ^ 32 = u := Nat.mod_eq_of_lt (by simpa using h)
    refine ⟨by simp [fromU256, toLe_length], ?_, ?_⟩
    · show bigEndian (toLe 32 u).reverse = u
      rw [← ofLe_reverse, List.reverse_reverse, ofLe_toLe, hm]
    · show ofLe (toLe 32 u).reverse.reverse = u
      rw [List.reverse_reverse, ofLe_toLe, hm]

example : value .big (fromU256 .big 258) = 258 ∧ fromU256 .little 258 ≠ fromU256 .big 258 :=
  ⟨(C65_u256 .big 258 (by decide)).2.1, by decide⟩

/-- **C65.** The number given back for any word is the one compiled code sees, and makes the same word
again. -/
theorem C65_word (e : Endian) (w : Bytes) (h : w.length = 32) :
    toU256 e w = value e w ∧ toU256 e w < 2 ^ 256 ∧ fromU256 e (toU256 e w) = w := by
  have h1 : toU256 e w = value e w := by
    cases e
    · show castToU256 .little w = littleEndian w
      rw [cast_eq w h, ofLe_eq]
    · exact ofLe_reverse w
  have h2 := value_lt e w h
  refine ⟨h1, h1 ▸ h2, ?_⟩
  rw [h1]
  obtain ⟨a, b, _⟩ := C65_u256 e _ h2
  exact value_inj e (a.trans h.symm) b

example : toU256 .big sampleWord = value .big sampleWord ∧ toU256 .big sampleWord ≠ toU256 .little sampleWord :=
  ⟨(C65_word .big sampleWord (by decide)).1, by decide⟩

/-- **C65.** Big-endian bytes, the byte order of everything outside the stack, convert to the word of
the same number and back. -/
theorem C65_big_endian (e : Endian) (b : Bytes) (h : b.length = 32) :
    value e (fromBeBytes e b) = bigEndian b ∧ bigEndian (toBeBytes e b) = value e b ∧
    toBeBytes e (fromBeBytes e b) = b ∧ fromBeBytes e (toBeBytes e b) = b ∧
    (toBeBytes e b).length = 32 := by
  cases e <;>
    simp [fromBeBytes, fromBe, swapBytes, toBeBytes, toNe, toBeWord, value, littleEndian, h]

example : value .little (fromBeBytes .little sampleWord) = bigEndian sampleWord :=
  (C65_big_endian .little sampleWord (by decide)).1

/-- **C65.** The same for little-endian bytes. -/
theorem C65_little_endian (e : Endian) (b : Bytes) (h : b.length = 32) :
    value e (fromLeBytes e b) = littleEndian b ∧ littleEndian (toLeBytes e b) = value e b ∧
    toLeBytes e (fromLeBytes e b) = b ∧ fromLeBytes e (toLeBytes e b) = b ∧
    (toLeBytes e b).length = 32 := by
  cases e <;>
    simp [fromLeBytes, fromLe, swapBytes, toLeBytes, toNe, toLeWord, value, littleEndian, h]

example : value .big (fromLeBytes .big sampleWord) = littleEndian sampleWord :=
  (C65_little_endian .big sampleWord (by decide)).1

/-- **C65.** A word from a byte string of up to 32 bytes is the number written by the string; longer
strings panic. -/
theorem C65_slices (e : Endian) (b : Bytes) :
    (b.length ≤ 32 → ∃ w v, fromBeSlice e b = some w ∧ value e w = bigEndian b ∧
      fromLeSlice e b = some v ∧ value e v = littleEndian b ∧ w.length = 32 ∧ v.length = 32) ∧
    (32 < b.length → fromBeSlice e b = none ∧ fromLeSlice e b = none) := by
  constructor
  · intro h
    have hp : (256 : Nat) ^ b.length ≤ 256 ^ 32 := Nat.pow_le_pow_right (by decide) h
    have h1 : ofLe b < 2 ^ 256 := Nat.lt_of_lt_of_le (ofLe_lt b) hp
    have h2 : ofLe b.reverse < 2 ^ 256 :=
      Nat.lt_of_lt_of_le (ofLe_lt b.reverse) (by rw [List.length_reverse]; exact hp)
    obtain ⟨l1, v1, _⟩ := C65_u256 e _ h1
    obtain ⟨l2, v2, _⟩ := C65_u256 e _ h2
    exact ⟨_, _, if_pos h, by rw [v2, ofLe_reverse], if_pos h, by rw [v1, ofLe_eq], l2, l1⟩
  · intro h
    exact ⟨if_neg (by omega), if_neg (by omega)⟩

example : ∃ w, fromBeSlice .little [1, 2] = some w ∧ value .little w = 258 := by
  obtain ⟨w, _, h, hv, _⟩ := (C65_slices .little [1, 2]).1 (by decide)
  exact ⟨w, h, hv⟩

/-- Dropping leading bytes keeps the low end of the number. -/
private theorem bigEndian_drop (b : Bytes) (n : Nat) (h : n ≤ b.length) :
    bigEndian (b.drop n) = bigEndian b % 256 ^ (b.length - n) := by
  have e : b.reverse = (b.drop n).reverse ++ (b.take n).reverse := by
    rw [← List.reverse_append, List.take_append_drop]
  have hl : (b.drop n).length = b.length - n := List.length_drop
  rw [← ofLe_reverse, ← ofLe_reverse b, e, ofLe_append, List.length_reverse, hl, Nat.add_mul_mod_self_left]
  have := ofLe_lt (b.drop n).reverse
  rw [List.length_reverse, hl] at this
  exact (Nat.mod_eq_of_lt this).symm

/-- **C65.** The address in a word is its low 160 bits. -/
theorem C65_address (e : Endian) (w : Bytes) (h : w.length = 32) :
    (toAddress e w).length = 20 ∧ bigEndian (toAddress e w) = value e w % 2 ^ 160 := by
  obtain ⟨_, h2, _, _, h5⟩ := C65_big_endian e w h
  refine ⟨by simp [toAddress, h5], ?_⟩
  rw [toAddress, bigEndian_drop _ _ (by omega), h2, h5]

example : bigEndian (toAddress .little sampleWord) = value .little sampleWord % 2 ^ 160 ∧
    value .little sampleWord ≥ 2 ^ 160 :=
  ⟨(C65_address .little sampleWord (by decide)).2, by decide⟩

/-- **C65.** A word converts to a machine size exactly when it fits. -/
theorem C65_usize (e : Endian) (w : Bytes) (h : w.length = 32) (n : Nat) :
    toUsize e w = some n ↔ value e w = n ∧ n < 2 ^ 64 := by
  unfold toUsize
  rw [(C65_word e w h).1]
  split
  · constructor
    · rintro ⟨⟩
      exact ⟨rfl, ‹_›⟩
    · rintro ⟨rfl, _⟩
      rfl
  · constructor
    · rintro ⟨⟩
    · rintro ⟨rfl, _⟩
      contradiction

example : toUsize .little sampleWord = none ∧ toUsize .little (fromU256 .little 7) = some 7 := by decide

/-! ## The buffer -/

private theorem holds_at {s : Buf} {len : Nat} {st : List Bytes} (h : Holds s len st) {i : Nat}
    (hi : i < st.length) : s[len - 1 - i]? = some (some st[i]) := by
  obtain ⟨_, hl, hs⟩ := h
  rw [hs _ (by omega), List.getElem?_reverse (by omega)]
  rw [show st.length - 1 - (len - 1 - i) = i by omega, List.getElem?_eq_getElem hi]

/-- **C65.** Pushing on a buffer that is not full pushes on the stack it holds; reading the top and
below it reads the stack. -/
theorem C65_stack (s : Buf) (len : Nat) (st : List Bytes) (h : Holds s len st) :
    (∀ w, len < 1024 → ∃ s', s.push len w = .ok (s', len + 1) ∧ Holds s' (len + 1) (w :: st)) ∧
    (∀ n (hn : n < st.length), s.fromTop len n = .ok st[n]) ∧
    (∀ hn : 0 < st.length, s.top len = .ok st[0]) ∧
    s.slice len = .ok st.reverse := by
  have hl := h.2.1
  have hcap := h.1
  refine ⟨?_, ?_, ?_, ?_⟩
  · intro w hw
    refine ⟨List.set s len (some w), ?_, ?_, ?_, ?_⟩
    · simp [Buf.push, Buf.setUnchecked, hcap, hw]
    · simp [hcap]
    · simp [hl]
    · intro i hi
      rw [List.getElem?_set, List.reverse_cons]
      by_cases e : len = i
      · subst e
        rw [if_pos rfl, if_pos (by omega), List.getElem?_append_right (by simp [hl])]
        simp [hl]
      · rw [if_neg e, h.2.2 i (by omega), List.getElem?_append_left (by simp; omega)]
  · intro n hn
    unfold Buf.fromTop
    rw [if_neg (by omega), Buf.getUnchecked, show len - n - 1 = len - 1 - n by omega, holds_at h hn]
  · intro hn
    unfold Buf.top
    rw [if_neg (by omega), Buf.getUnchecked, show len - 1 = len - 1 - 0 by omega, holds_at h hn]
  · have e : s.take len = st.reverse.map some := by
      apply List.ext_getElem?
      intro i
      rw [List.getElem?_take]
      by_cases hi : i < len
      · rw [if_pos hi, h.2.2 i hi, List.getElem?_map]
        rw [List.getElem?_eq_getElem (by simp; omega)]
        rfl
      · rw [if_neg hi, List.getElem?_eq_none (by simp; omega)]
    have hc : len ≤ capacity := by
      rcases Nat.lt_or_ge 1024 len with hgt | hle
      · have := h.2.2 1024 hgt
        rw [List.getElem?_eq_none (by omega)] at this
        cases this
      · exact hle
    unfold Buf.slice
    rw [if_pos hc, e, if_pos (by simp)]
    simp

/-- A buffer with two words. -/
example : ∃ s, Holds s 2 [sampleWord, zero] ∧ s.top 2 = .ok sampleWord := by
  have h0 : Holds Buf.new 0 [] := ⟨List.length_replicate, rfl, fun _ h => absurd h (by omega)⟩
  obtain ⟨s1, _, h1⟩ := (C65_stack _ _ _ h0).1 zero (by decide)
  obtain ⟨s2, _, h2⟩ := (C65_stack _ _ _ h1).1 sampleWord (by decide)
  exact ⟨s2, h2, (C65_stack _ _ _ h2).2.2.1 (by simp)⟩

/-- **C65.** Setting a slot of the stack replaces that entry only; outside the buffer it panics, and
reading outside gives nothing. -/
theorem C65_set (s : Buf) (len : Nat) (st : List Bytes) (h : Holds s len st) (i : Nat) (w : Bytes) :
    (i < len → ∃ s', s.set i w = .ok s' ∧ Holds s' len (st.set (len - 1 - i) w)) ∧
    (1024 ≤ i → s.set i w = .panic ∧ s.get i = .ok none) ∧
    (i < len → s.get i = .ok st.reverse[i]?) := by
  have hl := h.2.1
  have hcap := h.1
  have hc : len ≤ 1024 := by
    rcases Nat.lt_or_ge 1024 len with hgt | hle
    · have := h.2.2 1024 hgt
      rw [List.getElem?_eq_none (by omega)] at this
      cases this
    · exact hle
  refine ⟨?_, ?_, ?_⟩
  · intro hi
    refine ⟨List.set s i (some w), if_pos (by omega), by simp [hcap], by simp [hl], ?_⟩
    intro j hj
    rw [List.getElem?_set, List.getElem?_reverse (by simp; omega), List.getElem?_set]
    by_cases e : i = j
    · subst e
      simp only [List.length_set]
      rw [if_pos trivial, if_pos (by omega), if_pos (by omega), if_pos (by omega)]
    · simp only [List.length_set]
      rw [if_neg e, if_neg (by omega), h.2.2 j hj, List.getElem?_reverse (by omega)]
  · intro hi
    refine ⟨if_neg (by omega), ?_⟩
    unfold Buf.get
    rw [List.getElem?_eq_none (by omega)]
  · intro hi
    unfold Buf.get
    rw [h.2.2 i hi, List.getElem?_eq_getElem (by simp; omega)]

/-- The lower of two words replaced. -/
example : ∃ s s', Holds s 2 [sampleWord, sampleWord] ∧ s.set 0 zero = .ok s' ∧
    Holds s' 2 [sampleWord, zero] := by
  have h0 : Holds Buf.new 0 [] := ⟨List.length_replicate, rfl, fun _ h => absurd h (by omega)⟩
  obtain ⟨s1, _, h1⟩ := (C65_stack _ _ _ h0).1 sampleWord (by decide)
  obtain ⟨s2, _, h2⟩ := (C65_stack _ _ _ h1).1 sampleWord (by decide)
  obtain ⟨s3, h3, h4⟩ := (C65_set _ _ _ h2 0 zero).1 (by decide)
  exact ⟨s2, s3, h2, h3, h4⟩

end Verif.EvmWord
