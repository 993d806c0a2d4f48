import Verif.Lemmas.WholeMemCode
/-!
# One compiled instruction on the memory
-/

namespace Verif
open Spec

/-! ## Bytes and words -/

theorem leVal_lt : ∀ bs : List UInt8, leVal bs < 256 ^ bs.length
  | [] => by simp [leVal]
  | b :: bs => by
    have h1 := leVal_lt bs
    have h2 : b.toNat < 256 := b.toNat_lt
    rw [leVal, List.length_cons, Nat.pow_succ]
    omega

theorem leEncode_leVal : ∀ bs : List UInt8, leEncode bs.length (leVal bs) = bs
  | [] => rfl
  | b :: bs => by
    have h2 : b.toNat < 256 := b.toNat_lt
    rw [List.length_cons, leVal, leEncode, show (b.toNat + 256 * leVal bs) / 256 = leVal bs by omega, leEncode_leVal bs]
    congr 1
    apply UInt8.toNat_inj.1
    rw [UInt8.toNat_ofNat']
    omega

theorem leEncode_length : ∀ n v, (leEncode n v).length = n
  | 0, _ => rfl
  | n + 1, v => by rw [leEncode, List.length_cons, leEncode_length n]

theorem leVal_append : ∀ a b : List UInt8, leVal (a ++ b) = leVal a + 256 ^ a.length * leVal b
  | [], b => by simp [leVal]
  | x :: a, b => by
    rw [List.cons_append, leVal, leVal, leVal_append a b, List.length_cons, Nat.pow_succ, Nat.mul_add,
      Nat.mul_comm (256 ^ a.length) 256, Nat.mul_assoc]
    omega

theorem leVal_reverse (bs : List UInt8) : leVal bs.reverse = bs.foldl (fun a b => 256 * a + b.toNat) 0 := by
  have key : ∀ (bs : List UInt8) (a : Nat), bs.foldl (fun a b => 256 * a + b.toNat) a =
      leVal bs.reverse + 256 ^ bs.length * a := by
    intro bs
    induction bs with
    | nil => intro a; simp [leVal]
    | cons b bs ih =>
      intro a
      rw [List.foldl_cons, ih, List.reverse_cons, leVal_append, List.length_reverse, List.length_cons, Nat.pow_succ,
        Nat.mul_add, Nat.mul_assoc]
      have : leVal [b] = b.toNat := by simp [leVal]
      rw [this]
      omega
  rw [key]
  simp

theorem nativeLoad_word (le : Bool) {bs : List UInt8} (h : bs.length = 32) :
    (if le then bswap (nativeLoad le bs) else nativeLoad le bs) = beWord bs := by
  cases le with
  | false =>
    show BitVec.ofNat 256 (leVal bs.reverse) = _
    unfold beWord
    rw [leVal_reverse]
  | true =>
    show bswap (BitVec.ofNat 256 (leVal bs)) = _
    unfold bswap beWord
    have h1 := leVal_lt bs
    rw [h] at h1
    rw [BitVec.toNat_ofNat, Nat.mod_eq_of_lt (by rw [show (2 : Nat) ^ 256 = 256 ^ 32 by decide]; exact h1)]
    have h2 := leEncode_leVal bs
    rw [h] at h2
    rw [h2, leVal_reverse]

theorem leEncode_map : ∀ n v, leEncode n v = (List.range n).map fun j => UInt8.ofNat (v / 256 ^ j)
  | 0, _ => rfl
  | n + 1, v => by
    rw [leEncode, leEncode_map n, List.range_succ_eq_map, List.map_cons, List.map_map]
    congr 1
    · simp
    · apply List.map_congr_left
      intro j _
      simp only [Function.comp]
      rw [Nat.div_div_eq_div_mul, Nat.pow_succ, Nat.mul_comm 256]

theorem leEncode_be (v : Word) : (leEncode 32 v.toNat).reverse = beBytes v := by
  unfold beBytes
  rw [leEncode_map, ← List.map_reverse]
  rfl

theorem beBytes_length (v : Word) : (beBytes v).length = 32 := by
  unfold beBytes
  rw [List.length_map, List.length_range]

theorem nativeStore_bytes (le : Bool) (v : Word) : nativeStore le (if le then bswap v else v) = beBytes v := by
  cases le with
  | false => exact leEncode_be v
  | true =>
    show leEncode 32 (bswap v).toNat = _
    rw [← leEncode_be]
    unfold bswap
    have hl : (leEncode 32 v.toNat).reverse.length = 32 := by rw [List.length_reverse, leEncode_length]
    have h1 := leVal_lt (leEncode 32 v.toNat).reverse
    rw [hl] at h1
    rw [BitVec.toNat_ofNat, Nat.mod_eq_of_lt (by rw [show (2 : Nat) ^ 256 = 256 ^ 32 by decide]; exact h1)]
    have h2 := leEncode_leVal (leEncode 32 v.toNat).reverse
    rw [hl] at h2
    exact h2

/-! ## The memory -/

theorem expand_same {m : List UInt8} {n : Nat} (h : n ≤ m.length) : expand m n = m := by
  unfold expand
  rw [Nat.sub_eq_zero_of_le h]
  simp

theorem expand_length {m : List UInt8} {n : Nat} (h : m.length ≤ n) : (expand m n).length = n := by
  unfold expand
  rw [List.length_append, List.length_replicate]
  omega

theorem expand_expand {m : List UInt8} {a b : Nat} (h1 : m.length ≤ a) (h2 : a ≤ b) :
    expand (expand m a) b = expand m b := by
  have hl := expand_length h1
  unfold expand at *
  rw [hl, List.append_assoc, ← List.replicate_add, show a - m.length + (b - a) = b - m.length by omega]

/-- The context's copy is right. -/
structure GoodMem (cx : MCx) (m : List UInt8) : Prop where
  bytes : cx.bytes = m
  base : cx.memBase = cx.base
  len : cx.memLen = m.length

/-- The register, if there is one, holds the address of the memory. -/
def FreshReg (cx : MCx) : Prop := cx.cached = none ∨ cx.cached = some cx.base

theorem ensure_good {mv : Nat → Nat} {cx : MCx} {m : List UInt8} (h : GoodMem cx m) (off len : Nat) :
    GoodMem (cx.ensure mv off len) (expand m (mresizeLen m.length (off + len))) ∧
      (cx.ensure mv off len).cached = cx.cached ∧
      (mresizeLen m.length (off + len) = m.length → (cx.ensure mv off len).base = cx.base) := by
  obtain ⟨h1, h2, h3⟩ := h
  unfold MCx.ensure MCx.refresh
  rw [h1]
  split
  · rename_i hlt
    refine ⟨⟨rfl, rfl, rfl⟩, rfl, fun e => ?_⟩
    rw [e] at hlt
    omega
  · rename_i hge
    refine ⟨⟨?_, rfl, ?_⟩, rfl, fun _ => rfl⟩
    · rw [expand_same (by omega)]; exact h1
    · rw [expand_same (by omega), h1]

theorem addr_good {cx : MCx} {m : List UInt8} (h : GoodMem cx m) (hf : FreshReg cx) (off : Nat) :
    GoodMem (cx.addr off).1 m ∧ (cx.addr off).1.cached = some (cx.addr off).1.base ∧
      (cx.addr off).2 = (cx.addr off).1.base + off := by
  obtain ⟨h1, h2, h3⟩ := h
  unfold MCx.addr
  have e : cx.cached.getD cx.memBase = cx.base := by
    rcases hf with hf | hf
    · rw [hf]; exact h2
    · rw [hf]; rfl
  rw [e]
  exact ⟨⟨h1, h2, h3⟩, rfl, rfl⟩

theorem access_good {mv : Nat → Nat} {cx : MCx} {m : List UInt8} (h : GoodMem cx m) (hf : FreshReg cx) {skip : Bool}
    {direct : Nat} {offset : Word} {len : BitVec 64} {N : Nat} {c : MemCheck}
    (hc : c = ensureMemSec skip direct offset len (BitVec.ofNat 64 m.length)) (hN : c.after m.length = N)
    (ha : c.addr.toNat = offset.toNat) :
    GoodMem (cx.access mv skip direct offset len).1 (expand m N) ∧
      FreshReg (cx.access mv skip direct offset len).1 ∧
      (cx.access mv skip direct offset len).2 = (cx.access mv skip direct offset len).1.base + offset.toNat := by
  have hlen := h.len
  unfold MCx.access
  rw [show ensureMemSec skip direct offset len (BitVec.ofNat 64 cx.memLen) = c by rw [hlen, hc]]
  cases c with
  | fast off =>
    dsimp only
    have hN : m.length = N := hN
    have ha : off.toNat = offset.toNat := ha
    rw [← hN, expand_same (Nat.le_refl _), ← ha]
    have hg : GoodMem (if skip = true then cx else { cx with cached := none }) m ∧
        FreshReg (if skip = true then cx else { cx with cached := none }) := by
      split
      · exact ⟨h, hf⟩
      · exact ⟨⟨h.bytes, h.base, h.len⟩, .inl rfl⟩
    obtain ⟨q1, q2, q3⟩ := addr_good hg.1 hg.2 off.toNat
    exact ⟨q1, .inr q2, q3⟩
  | resize n off =>
    dsimp only
    have hN : mresizeLen m.length n.toNat = N := hN
    have ha : off.toNat = offset.toNat := ha
    obtain ⟨q1, q2, q3⟩ := ensure_good (mv := mv) h n.toNat 0
    rw [Nat.add_zero, hN] at q1
    have hg : GoodMem { cx.ensure mv n.toNat 0 with cached := none } (expand m N) := ⟨q1.bytes, q1.base, q1.len⟩
    obtain ⟨r1, r2, r3⟩ := addr_good hg (.inl rfl) off.toNat
    rw [ha] at r1 r2 r3
    rw [ha]
    exact ⟨r1, .inr r2, r3⟩

theorem read_good {cx : MCx} {m : List UInt8} (h : GoodMem cx m) {off n : Nat} (hb : off + n ≤ m.length) :
    cx.read (cx.base + off) n = some ((m.drop off).take n) := by
  unfold MCx.read
  rw [h.bytes, if_pos (by omega), Nat.add_sub_cancel_left]

theorem write_good {cx : MCx} {m : List UInt8} (h : GoodMem cx m) {off : Nat} {bs : List UInt8}
    (hb : off + bs.length ≤ m.length) :
    ∃ cx', cx.write (cx.base + off) bs = some cx' ∧ GoodMem cx' (overwrite m off bs) ∧ (FreshReg cx → FreshReg cx') := by
  unfold MCx.write
  rw [h.bytes, if_pos (by omega), Nat.add_sub_cancel_left]
  refine ⟨_, rfl, ⟨rfl, h.base, ?_⟩, id⟩
  show cx.memLen = _
  rw [h.len]
  unfold overwrite
  simp only [List.length_append, List.length_take, List.length_drop]
  omega

/-! ## Builtins -/

theorem mresize_grow {m off len : Nat} (h : len ≠ 0) : mresizeLen m (off + len) = grow m (off, len) := by
  unfold mresizeLen numWords grow
  rw [if_neg h]

theorem ensureAll_good {mv : Nat → Nat} : ∀ (rs : List (Nat × Nat)) {cx : MCx} {m : List UInt8}, GoodMem cx m →
    (∀ r ∈ rs, r.2 ≠ 0) →
    GoodMem (rs.foldl (fun cx r => cx.ensure mv r.1 r.2) cx) (expand m (growAll m.length rs)) ∧
      (rs.foldl (fun cx r => cx.ensure mv r.1 r.2) cx).cached = cx.cached ∧
      (growAll m.length rs = m.length → (rs.foldl (fun cx r => cx.ensure mv r.1 r.2) cx).base = cx.base)
  | [], cx, m, h, _ => by
    refine ⟨?_, rfl, fun _ => rfl⟩
    show GoodMem cx (expand m m.length)
    rw [expand_same (Nat.le_refl _)]
    exact h
  | r :: rs, cx, m, h, hn => by
    have hr := hn r (by simp)
    obtain ⟨q1, q2, q3⟩ := ensure_good (mv := mv) h r.1 r.2
    rw [mresize_grow hr] at q1 q3
    have hge : m.length ≤ grow m.length r := grow_le _ _
    obtain ⟨p1, p2, p3⟩ := ensureAll_good rs q1 fun x hx => hn x (List.mem_cons_of_mem _ hx)
    rw [expand_length hge] at p1 p3
    rw [List.foldl_cons]
    have hle2 : grow m.length r ≤ growAll (grow m.length r) rs := growAll_le rs _
    have hg : growAll m.length (r :: rs) = growAll (grow m.length r) rs := rfl
    rw [expand_expand hge hle2] at p1
    rw [hg]
    refine ⟨p1, p2.trans q2, fun e => ?_⟩
    have e1 : grow m.length r = m.length := by omega
    rw [p3 (by rw [e, e1]), q3 e1]

theorem growAll_filter (rs : List (Nat × Nat)) (m : Nat) : growAll m (rs.filter fun r => r.2 != 0) = growAll m rs := by
  unfold growAll
  induction rs generalizing m with
  | nil => rfl
  | cons r rs ih =>
    rw [List.filter_cons, List.foldl_cons]
    split
    · rw [List.foldl_cons]; exact ih _
    · rename_i h
      have h0 : r.2 = 0 := by simpa using h
      rw [ih]
      congr 1
      unfold grow
      rw [if_pos h0]

/-- The ranges builtins ensure. -/
theorem builtin_ranges (o : UInt8) (args : List Word) (h1 : o.toNat ≠ 0x51) (h2 : o.toNat ≠ 0x52)
    (h3 : o.toNat ≠ 0x53) :
    (∀ m, growAll m (builtinRanges o args) = growAll m (memRanges o.toNat args)) ∧
      ((builtinRanges o args).isEmpty = true ↔ ∀ r ∈ memRanges o.toNat args, r.2 = 0) ∧
      ∀ r ∈ builtinRanges o args, r.2 ≠ 0 := by
  have hlog : ∀ o : UInt8, (decide (op.LOG0 ≤ o) && decide (o ≤ op.LOG4)) = decide (0xa0 ≤ o.toNat ∧ o.toNat ≤ 0xa4) := by
    decide +kernel
  have hany : ∀ rs : List (Nat × Nat), ((rs.filter fun r => r.2 != 0).isEmpty = true ↔ ∀ r ∈ rs, r.2 = 0) := by
    intro rs
    rw [List.isEmpty_iff, List.filter_eq_nil_iff]
    simp
  obtain ⟨t1, t2, t3, t4, t5, t6, t7, t8, t9, t10, t11, t12, t13, t14, t15, t16, t17, t18, t19, t20, t21, t22⟩ :=
    op_table o
  have hnz : ∀ r ∈ builtinRanges o args, r.2 ≠ 0 := by
    intro r hr
    unfold builtinRanges at hr
    simpa using (List.mem_filter.1 hr).2
  by_cases hm : o.toNat = 0x5e
  · have e : builtinRanges o args = [(max (args[0]?.getD 0).toNat (args[1]?.getD 0).toNat, (args[2]?.getD 0).toNat)].filter
        fun r => r.2 != 0 := by
      unfold builtinRanges
      simp only [t1, t2, t3, t8, t9, t10, t11, t12, hm]
      rfl
    have e2 : memRanges o.toNat args =
        [((args[0]?.getD 0).toNat, (args[2]?.getD 0).toNat), ((args[1]?.getD 0).toNat, (args[2]?.getD 0).toNat)] := by
      unfold memRanges
      simp only [hm]
      rfl
    refine ⟨fun m => ?_, ?_, hnz⟩
    · rw [e, growAll_filter, e2]
      show grow m _ = grow (grow m _) _
      unfold grow
      dsimp only
      split
      · rfl
      · omega
    · rw [e, hany, e2]
      simp
  · have e : builtinRanges o args = (memRanges o.toNat args).filter fun r => r.2 != 0 := by
      unfold builtinRanges memRanges
      dsimp only
      rw [t1, t2, t3, t8, t9, t10, t11, t12, hlog, t17, t18, t19, t20, t21, t22]
      simp only [h1, h2, h3, hm, decide_false, Bool.false_eq_true, if_false, or_self, Bool.or_eq_true, decide_eq_true_eq]
      congr 1
      by_cases c1 : o.toNat = 0x20
      · simp [c1]
      by_cases c2 : o.toNat = 0xf3
      · simp [c2]
      by_cases c3 : o.toNat = 0xfd
      · simp [c3]
      simp only [c1, c2, c3, or_self, if_false, or_assoc]
    exact ⟨fun m => by rw [e, growAll_filter], by rw [e, hany], hnz⟩

/-! ## One instruction -/

theorem ranges_memOp : ∀ o : UInt8, memOp o = false → (∀ args, memRanges o.toNat args = []) ∧
    o.toNat ≠ 0x51 ∧ o.toNat ≠ 0x52 ∧ o.toNat ≠ 0x53 ∧ o.toNat ≠ 0x59 := by
  intro o h
  have hb : ∀ o : UInt8, memOp o = false → o.toNat ≠ 0x20 ∧ ¬ (o.toNat = 0x37 ∨ o.toNat = 0x39 ∨ o.toNat = 0x3e) ∧
      o.toNat ≠ 0x3c ∧ ¬ (o.toNat = 0x51 ∨ o.toNat = 0x52) ∧ o.toNat ≠ 0x53 ∧ o.toNat ≠ 0x5e ∧
      ¬ (0xa0 ≤ o.toNat ∧ o.toNat ≤ 0xa4) ∧ ¬ (o.toNat = 0xf0 ∨ o.toNat = 0xf5) ∧ ¬ (o.toNat = 0xf1 ∨ o.toNat = 0xf2) ∧
      ¬ (o.toNat = 0xf4 ∨ o.toNat = 0xfa) ∧ ¬ (o.toNat = 0xf3 ∨ o.toNat = 0xfd) ∧ o.toNat ≠ 0x59 := by decide +kernel
  obtain ⟨c1, c2, c3, c4, c5, c6, c7, c8, c9, c10, c11, c12⟩ := hb o h
  refine ⟨fun args => ?_, by omega, by omega, c5, c12⟩
  unfold memRanges
  dsimp only
  rw [if_neg c1, if_neg c2, if_neg c3, if_neg c4, if_neg c5, if_neg c6, if_neg c7, if_neg c8, if_neg c9, if_neg c10,
    if_neg c11]

theorem skip_memOp : ∀ o : UInt8, canSkipWhenDead o = true → memOp o = false := by decide +kernel

/-- Without an access nothing is skipped. -/
theorem memBuiltin_good {W : MemWorld} (hw : KeepsSize W.wr) {k i : Nat} {d : InstData} {args : List Word} {skip : Bool}
    {cx : MCx} {m : List UInt8} (h : GoodMem cx m) (hf : FreshReg cx)
    (h1 : d.opcode.toNat ≠ 0x51) (h2 : d.opcode.toNat ≠ 0x52) (h3 : d.opcode.toNat ≠ 0x53)
    (hskip : skip = true → growAll m.length (memRanges d.opcode.toNat args) = m.length) :
    GoodMem (Compiled.memBuiltin W k i d args skip cx) (memAfter W.wr k i d.opcode.toNat args m) ∧
      (d.maySuspend = false → FreshReg (Compiled.memBuiltin W k i d args skip cx)) := by
  obtain ⟨hg, hemp, hnz⟩ := builtin_ranges d.opcode args h1 h2 h3
  obtain ⟨q1, q2, q3⟩ := ensureAll_good (mv := W.mv) (builtinRanges d.opcode args) h hnz
  rw [hg] at q1 q3
  have hA : memAfter W.wr k i d.opcode.toNat args m =
      if (builtinRanges d.opcode args).isEmpty = true then expand m (growAll m.length (memRanges d.opcode.toNat args))
      else W.wr k i args (expand m (growAll m.length (memRanges d.opcode.toNat args))) := by
    unfold memAfter
    dsimp only
    rw [if_neg h2, if_neg h3]
    by_cases he : (builtinRanges d.opcode args).isEmpty = true
    · rw [if_pos (.inr (hemp.1 he)), if_pos he]
    · rw [if_neg (fun x => x.elim h1 fun y => he (hemp.2 y)), if_neg he]
  rw [hA]
  unfold Compiled.memBuiltin
  dsimp only
  -- after the writes
  obtain ⟨cx2, hcx2, r1, r2, r3⟩ : ∃ cx2, (if (builtinRanges d.opcode args).isEmpty = true then
        (builtinRanges d.opcode args).foldl (fun cx r => cx.ensure W.mv r.1 r.2) cx
      else { (builtinRanges d.opcode args).foldl (fun cx r => cx.ensure W.mv r.1 r.2) cx with
        bytes := W.wr k i args ((builtinRanges d.opcode args).foldl (fun cx r => cx.ensure W.mv r.1 r.2) cx).bytes }) = cx2 ∧
      GoodMem cx2 (if (builtinRanges d.opcode args).isEmpty = true then
          expand m (growAll m.length (memRanges d.opcode.toNat args))
        else W.wr k i args (expand m (growAll m.length (memRanges d.opcode.toNat args)))) ∧
      cx2.cached = cx.cached ∧
      (growAll m.length (memRanges d.opcode.toNat args) = m.length → cx2.base = cx.base) := by
    refine ⟨_, rfl, ?_⟩
    split
    · exact ⟨q1, q2, q3⟩
    · refine ⟨⟨?_, q1.base, ?_⟩, q2, q3⟩
      · show W.wr k i args _ = _
        rw [q1.bytes]
      · show MCx.memLen _ = _
        rw [hw, q1.len]
  rw [hcx2]
  -- after the register is forgotten
  obtain ⟨cx3, hcx3, s1, s2⟩ : ∃ cx3, (if (W.calls i || !(builtinRanges d.opcode args).isEmpty) && !skip then
      { cx2 with cached := none } else cx2) = cx3 ∧
      GoodMem cx3 (if (builtinRanges d.opcode args).isEmpty = true then
          expand m (growAll m.length (memRanges d.opcode.toNat args))
        else W.wr k i args (expand m (growAll m.length (memRanges d.opcode.toNat args)))) ∧ FreshReg cx3 := by
    refine ⟨_, rfl, ?_⟩
    split
    · exact ⟨⟨r1.bytes, r1.base, r1.len⟩, .inl rfl⟩
    · rename_i hc
      refine ⟨r1, ?_⟩
      have hsame : growAll m.length (memRanges d.opcode.toNat args) = m.length := by
        cases hs : skip with
        | true => exact hskip hs
        | false =>
          rw [hs] at hc
          simp only [Bool.not_false, Bool.and_true, Bool.or_eq_true, not_or, Bool.not_eq_true', Bool.not_eq_false] at hc
          rw [← hg]
          rw [List.isEmpty_iff.1 hc.2]
          rfl
      unfold FreshReg
      rw [r2, r3 hsame]
      exact hf
  rw [hcx3]
  split
  · rename_i hsus
    refine ⟨⟨s1.bytes, rfl, ?_⟩, fun h => by rw [hsus] at h; cases h⟩
    show (MCx.bytes cx3).length = _
    rw [s1.bytes]
  · exact ⟨s1, fun _ => s2⟩

theorem size_le {m : Nat} {rs : List (Nat × Nat)} (hm : m ≤ 2 ^ 63) (hs : ∀ r ∈ rs, r.2 ≠ 0 → r.1 + r.2 < 2 ^ 63) :
    growAll m rs ≤ 2 ^ 63 := by
  unfold growAll
  induction rs generalizing m with
  | nil => exact hm
  | cons r rs ih =>
    rw [List.foldl_cons]
    refine ih ?_ fun x hx => hs x (List.mem_cons_of_mem _ hx)
    unfold grow
    split
    · exact hm
    · rename_i h
      have := hs r (by simp) h
      omega

theorem memAfter_length {wr : Nat → Nat → List Word → List UInt8 → List UInt8} (hw : KeepsSize wr) (k i o : Nat)
    (args : List Word) (m : List UInt8) : (memAfter wr k i o args m).length = growAll m.length (memRanges o args) := by
  have hexp := expand_length (m := m) (growAll_le (memRanges o args) m.length)
  unfold memAfter
  dsimp only
  split
  · rename_i h
    have hr : memRanges o args = [((args[0]?.getD 0).toNat, 32)] := by unfold memRanges; simp [h]
    unfold overwrite
    simp only [List.length_append, List.length_take, List.length_drop, hexp, beBytes_length]
    rw [hr]
    have : growAll m.length [((args[0]?.getD 0).toNat, 32)] = grow m.length ((args[0]?.getD 0).toNat, 32) := rfl
    rw [this]
    unfold grow
    dsimp only
    rw [if_neg (by decide)]
    omega
  · split
    · rename_i h
      have hr : memRanges o args = [((args[0]?.getD 0).toNat, 1)] := by unfold memRanges; simp [h]
      unfold overwrite
      simp only [List.length_append, List.length_take, List.length_drop, hexp, List.length_cons, List.length_nil]
      rw [hr]
      have : growAll m.length [((args[0]?.getD 0).toNat, 1)] = grow m.length ((args[0]?.getD 0).toNat, 1) := rfl
      rw [this]
      unfold grow
      dsimp only
      rw [if_neg (by decide)]
      omega
    · split
      · exact hexp
      · rw [hw, hexp]

section step
variable {base : List InstData} {ok : Nat → List Word → Prop} {o : WOpts} {C : Compiled} (G : GoodC base ok o C)
  (M : GoodM base C)
include G M

/-- The code of an instruction does to the memory what the EVM does. -/
theorem GoodC.memInst {fuel : Nat} {tbl : List (Nat × MemSection)} {W : MemWorld} (hw : KeepsSize W.wr)
    {b : Nat} {blk : Nat × Nat} (hb : C.prog.blocks[b]? = some blk) {i : Nat} (hle : blk.1 ≤ i) (hlt : i < blk.2)
    {d : InstData} (hd : C.prog.insts[i]? = some d) {args : List Word} {m : List UInt8} (hm : m.length ≤ 2 ^ 63)
    (hat : MemAt C.ai C.prog.memBlocks fuel ((tbl.lookup i).getD {}) (i, d) args m.length)
    {cx : MCx} (hg : GoodMem cx m) (hf : i ∉ C.heads → FreshReg cx) (k : Nat) :
    ∃ cx', C.memInst tbl W k i args cx = some (cx', memAnswer d.opcode.toNat args m) ∧
      GoodMem cx' (memAfter W.wr k i d.opcode.toNat args m) ∧ (d.maySuspend = false → FreshReg cx') := by
  obtain ⟨mk, hinst, hmk⟩ := G.instAt hb hle hlt hd
  obtain ⟨f1, f2, f3, _⟩ := mark_flags (m := mk) (d := d)
  obtain ⟨d0, h0, he⟩ := G.sound.ev.back hd
  have hon := hat.runs.on
  have hnoop := (G.inst i d hd).noop
  unfold Compiled.memInst
  rw [hinst]
  dsimp only
  rw [f1, f2, f3]
  have hon' : (d.flags.disabled || d.flags.unknown) = false := hon
  rw [hon']
  simp only [Bool.false_eq_true, if_false]
  -- the register at the head of a section
  obtain ⟨cx1, hcx1, g1, fr1⟩ : ∃ cx1, (if C.heads.contains i = true then { cx with cached := none } else cx) = cx1 ∧
      GoodMem cx1 m ∧ FreshReg cx1 := by
    refine ⟨_, rfl, ?_⟩
    split
    · exact ⟨⟨hg.bytes, hg.base, hg.len⟩, .inl rfl⟩
    · rename_i hc
      exact ⟨hg, hf fun x => hc (List.contains_iff_mem.2 x)⟩
  rw [hcx1]
  have hquiet : memOp d.opcode = false → memAnswer d.opcode.toNat args m = none ∧
      memAfter W.wr k i d.opcode.toNat args m = m := by
    intro hmo
    obtain ⟨r1, r2, r3, r4, r5⟩ := ranges_memOp d.opcode hmo
    unfold memAnswer memAfter
    rw [if_neg r2, if_neg r5, r1]
    refine ⟨rfl, ?_⟩
    dsimp only
    rw [if_neg r3, if_neg r4, if_pos (.inr (by simp))]
    exact expand_same (Nat.le_refl _)
  split
  · -- no code
    rename_i hcond
    have hmo : memOp d.opcode = false := by
      simp only [Bool.or_eq_true, Bool.and_eq_true, decide_eq_true_eq] at hcond
      rcases hcond with hc | ⟨_, hc⟩
      · cases mk with
        | false =>
          have : (mark false d).flags.noop = d.flags.noop := rfl
          rw [this] at hc
          rw [show d.flags.noop = false from hnoop] at hc
          cases hc
        | true => exact skip_memOp _ (hmk rfl).1
      · cases hmo : memOp d.opcode with
        | false => rfl
        | true =>
          exfalso
          rw [M.noOut i d0 h0 (by rw [← he.op]; exact hmo)] at hc
          cases hc
    obtain ⟨q1, q2⟩ := hquiet hmo
    rw [q1, q2]
    exact ⟨cx1, rfl, g1, fun _ => fr1⟩
  · rename_i hcode
    have ha : (args[0]?.getD 0) = args.headD 0 := by cases args <;> rfl
    obtain ⟨_, _, _, _, t5, t6, t7, _⟩ := op_table d.opcode
    have hcm : constMemAccesses C.ai i (mark mk d) = constMemAccesses C.ai i d := by
      unfold constMemAccesses
      rw [f3, f1, f2]
    have hsus : (mark mk d).maySuspend = d.maySuspend := by cases mk <;> rfl
    have hof : (BitVec.ofNat 64 m.length).toNat = m.length := by
      rw [BitVec.toNat_ofNat]
      omega
    rw [hcm]
    have haccess : ∀ {len : BitVec 64}, checkLen d.opcode = some len →
        memRanges d.opcode.toNat args = [((args[0]?.getD 0).toNat, len.toNat)] →
        ∃ r, cx1.access W.mv (canSkipMem ((tbl.lookup i).getD {}) (constMemAccesses C.ai i d)) ((tbl.lookup i).getD {}).direct
            (args[0]?.getD 0) len = r ∧
          GoodMem r.1 (expand m (growAll m.length (memRanges d.opcode.toNat args))) ∧ FreshReg r.1 ∧
          r.2 = r.1.base + (args[0]?.getD 0).toNat ∧
          (args[0]?.getD 0).toNat + len.toNat ≤
            (expand m (growAll m.length (memRanges d.opcode.toNat args))).length := by
      intro len hlen hr
      have h := C22_ensure_partial C.ai C.prog.memBlocks fuel ((tbl.lookup i).getD {}) (i, d) args
        (BitVec.ofNat 64 m.length) len (by rw [hof]; exact hat) hlen
      rw [hof] at h
      obtain ⟨c, hc, e1, e2, e3⟩ := h
      rw [ha]
      obtain ⟨q1, q2, q3⟩ := access_good (mv := W.mv) g1 fr1 hc e1 e2
      refine ⟨_, rfl, q1, q2, q3, ?_⟩
      rw [expand_length (growAll_le _ _), ← e2, ← e1]
      exact e3
    have hc51 : ∀ o : UInt8, (o == op.MSIZE) = decide (o.toNat = 0x59) := by decide +kernel
    by_cases c1 : d.opcode.toNat = 0x51
    · rw [t5]
      simp only [c1, decide_true, if_true]
      obtain ⟨r, hr, q1, q2, q3, q4⟩ := haccess (len := 32) (by unfold checkLen; simp [c1]) (by unfold memRanges; simp [c1])
      rw [c1] at q1 q4
      rw [hr, q3, read_good q1 (by exact q4)]
      refine ⟨r.1, ?_, ?_, fun _ => q2⟩
      · rw [Option.map_some]
        unfold memAnswer
        rw [if_pos rfl, nativeLoad_word]
        · rw [List.length_take, List.length_drop]
          have : (32 : BitVec 64).toNat = 32 := rfl
          omega
      · unfold memAfter
        simpa using q1
    by_cases c2 : d.opcode.toNat = 0x52
    · rw [t5, t6]
      simp only [c2, decide_true, if_true]
      obtain ⟨r, hr, q1, q2, q3, q4⟩ := haccess (len := 32) (by unfold checkLen; simp [c2]) (by unfold memRanges; simp [c2])
      rw [c2] at q1 q4
      rw [hr, q3, nativeStore_bytes]
      obtain ⟨cx', e1, e2, e3⟩ := write_good q1 (off := (args[0]?.getD 0).toNat) (bs := beBytes (args[1]?.getD 0))
        (by rw [beBytes_length]; exact q4)
      rw [e1]
      refine ⟨cx', rfl, ?_, fun _ => e3 q2⟩
      unfold memAfter
      simpa using e2
    by_cases c3 : d.opcode.toNat = 0x53
    · rw [t5, t6, t7]
      simp only [c3, decide_true, if_true]
      obtain ⟨r, hr, q1, q2, q3, q4⟩ := haccess (len := 1) (by unfold checkLen; simp [c3]) (by unfold memRanges; simp [c3])
      rw [c3] at q1 q4
      rw [hr, q3]
      obtain ⟨cx', e1, e2, e3⟩ := write_good q1 (off := (args[0]?.getD 0).toNat)
        (bs := [UInt8.ofNat (args[1]?.getD 0).toNat]) (by exact q4)
      simp only [show ¬ ((0x53 : Nat) = 0x51) by decide, show ¬ ((0x53 : Nat) = 0x52) by decide, decide_false,
        Bool.false_eq_true, if_false]
      rw [e1]
      refine ⟨cx', rfl, ?_, fun _ => e3 q2⟩
      unfold memAfter
      simpa using e2
    rw [t5, t6, t7, hc51]
    simp only [c1, c2, c3, decide_false, Bool.false_eq_true, if_false, decide_eq_true_eq]
    by_cases c4 : d.opcode.toNat = 0x59
    · simp only [c4, if_true]
      refine ⟨cx1, ?_, ?_, fun _ => fr1⟩
      · unfold memAnswer
        simp [g1.len]
      · have : memAfter W.wr k i 0x59 args m = m := by
          unfold memAfter memRanges
          simp only [show ¬ ((0x59 : Nat) = 0x52) by decide, show ¬ ((0x59 : Nat) = 0x53) by decide, if_false]
          rw [if_pos (.inr (by simp))]
          exact expand_same (by simp [growAll])
        rw [this]
        exact g1
    · rw [if_neg c4]
      have hans : memAnswer d.opcode.toNat args m = none := by
        unfold memAnswer
        rw [if_neg c1, if_neg c4]
      rw [hans]
      have hskip : canSkipMem ((tbl.lookup i).getD {}) (constMemAccesses C.ai i d) = true →
          growAll m.length (memRanges d.opcode.toNat args) = m.length :=
        C22_skip_partial C.ai C.prog.memBlocks fuel _ (i, d) args m.length hat
      have hmb : ∀ skip, Compiled.memBuiltin W k i (mark mk d) args skip cx1 = Compiled.memBuiltin W k i d args skip cx1 := by
        intro skip
        unfold Compiled.memBuiltin
        rw [f3, hsus]
      rw [hmb]
      obtain ⟨q1, q2⟩ := memBuiltin_good hw (k := k) (i := i) g1 fr1 c1 c2 c3 hskip
      exact ⟨_, rfl, q1, q2⟩

end step

end Verif
