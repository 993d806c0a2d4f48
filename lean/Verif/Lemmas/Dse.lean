import Verif.Model.Dse
import Verif.Lemmas.VStackRun
import Verif.Lemmas.Byte
import Verif.Lemmas.Interp
/-!
# Lemmas about the liveness transfer
-/

namespace Verif
open Spec
variable {E : Type}

/-- The positions live in `L` (bottom-indexed, at height `h`) are correctly represented in `G`
(top-indexed), as is everything below the block's window. -/
structure LiveIn (L : List Bool) (h : Nat) (G : List Bool) : Prop where
  live : ∀ d, d < h → d < G.length → L[h - 1 - d]? = some true → G[d]? = some true
  deep : ∀ d, h ≤ d → d < G.length → G[d]? = some true

namespace Live

theorem set_some {L L' : List Bool} {p : Nat} {b : Bool} (h : set L p b = some L') :
    p < L.length ∧ L' = L.set p b := by
  unfold set at h
  split at h
  · rename_i hp; exact ⟨hp, (Option.some.inj h).symm⟩
  · simp at h

theorem set_ok {L : List Bool} {p : Nat} (b : Bool) (h : p < L.length) : set L p b = some (L.set p b) := by
  unfold set; rw [if_pos h]

theorem sub_ok {a b : Nat} (h : b ≤ a) : sub a b = some (a - b) := by unfold sub; rw [if_pos h]

theorem killFrom_some (base n : Nat) {L L' : List Bool} (h : killFrom base n L = some L') :
    L'.length = L.length ∧ ∀ j, L'[j]? = if base ≤ j ∧ j < base + n then some false else L[j]? := by
  induction n generalizing base L with
  | zero =>
    have := Option.some.inj h; subst this
    exact ⟨rfl, fun j => by rw [if_neg (by omega)]⟩
  | succ n ih =>
    unfold killFrom at h
    obtain ⟨L1, h1, h2⟩ := Option.bind_eq_some_iff.1 h
    obtain ⟨hp, rfl⟩ := set_some h1
    obtain ⟨hl, hj⟩ := ih (base + 1) h2
    refine ⟨by rw [hl]; simp, fun j => ?_⟩
    rw [hj j, List.getElem?_set]
    by_cases h1 : base + 1 ≤ j ∧ j < base + 1 + n
    · rw [if_pos h1, if_pos (by omega)]
    · rw [if_neg h1]
      by_cases h2 : base = j
      · subst h2; rw [if_pos rfl, if_pos hp, if_pos (by omega)]
      · rw [if_neg h2, if_neg (by omega)]

theorem killFrom_ok (base n : Nat) {L : List Bool} (h : base + n ≤ L.length) :
    ∃ L', killFrom base n L = some L' := by
  induction n generalizing base L with
  | zero => exact ⟨L, rfl⟩
  | succ n ih =>
    unfold killFrom
    rw [set_ok _ (by omega), Option.bind_some]
    exact ih (base + 1) (by simp; omega)

theorem markFrom_some (snap : List AbsValue) (base n k : Nat) {L L' : List Bool}
    (h : markFrom snap base n k L = some L') :
    L'.length = L.length ∧ (∀ j : Nat, L[j]? = some true → L'[j]? = some true) ∧
      (∀ j : Nat, j < base + k ∨ base + k + n ≤ j → L'[j]? = L[j]?) ∧
      (∀ q : Nat, k ≤ q → q < k + n → ((snap[q]?).bind AbsValue.asConst).isSome = false →
        L'[base + q]? = some true) := by
  induction n generalizing k L with
  | zero =>
    have := Option.some.inj h; subst this
    exact ⟨rfl, fun _ h => h, fun _ _ => rfl, fun q h1 h2 => absurd h2 (by omega)⟩
  | succ n ih =>
    unfold markFrom at h
    obtain ⟨L1, h1, h2⟩ := Option.bind_eq_some_iff.1 h
    obtain ⟨hl, hm, ho, hi⟩ := ih (k + 1) h2
    by_cases hc : ((snap[k]?).bind AbsValue.asConst).isSome = true
    · rw [if_pos hc] at h1
      have := Option.some.inj h1; subst this
      refine ⟨hl, hm, fun j hj => ho j (by omega), fun q q1 q2 q3 => ?_⟩
      by_cases e : q = k
      · subst e; rw [hc] at q3; simp at q3
      · exact hi q (by omega) (by omega) q3
    · rw [if_neg hc] at h1
      obtain ⟨hp, rfl⟩ := set_some h1
      refine ⟨by rw [hl]; simp, fun j hj => hm j ?_, fun j hj => ?_, fun q q1 q2 q3 => ?_⟩
      · rw [List.getElem?_set]
        split
        · rename_i e; subst e; simp [hp]
        · exact hj
      · rw [ho j (by omega), List.getElem?_set_ne (by omega)]
      · by_cases e : q = k
        · subst e
          exact hm _ (by rw [List.getElem?_set_self hp])
        · exact hi q (by omega) (by omega) q3

theorem markFrom_ok (snap : List AbsValue) (base n k : Nat) {L : List Bool} (h : base + k + n ≤ L.length) :
    ∃ L', markFrom snap base n k L = some L' := by
  induction n generalizing k L with
  | zero => exact ⟨L, rfl⟩
  | succ n ih =>
    unfold markFrom
    split
    · rw [Option.bind_some]; exact ih (k + 1) (by omega)
    · rw [set_ok _ (by omega), Option.bind_some]
      exact ih (k + 1) (by simp; omega)

theorem exchange_some {L L' : List Bool} {p q : Nat} (h : exchange L p q = some L') :
    p < L.length ∧ q < L.length ∧ L'.length = L.length ∧
      ∀ j, L'[j]? = if j = q then L[p]? else if j = p then L[q]? else L[j]? := by
  unfold exchange at h
  obtain ⟨a, ha, h⟩ := Option.bind_eq_some_iff.1 h
  obtain ⟨b, hb, h⟩ := Option.bind_eq_some_iff.1 h
  obtain ⟨L1, h1, h2⟩ := Option.bind_eq_some_iff.1 h
  obtain ⟨hp, rfl⟩ := set_some h1
  obtain ⟨hq, rfl⟩ := set_some h2
  rw [List.length_set] at hq
  refine ⟨hp, hq, by simp, fun j => ?_⟩
  rw [List.getElem?_set, List.getElem?_set]
  by_cases h1 : q = j
  · subst h1; rw [if_pos rfl, if_pos rfl, if_pos (by simpa using hq), ha]
  · rw [if_neg h1]
    by_cases h2 : p = j
    · subst h2; rw [if_pos rfl, if_pos hp, if_neg (fun e => h1 e.symm), if_pos rfl, hb]
    · rw [if_neg h2, if_neg (fun e => h1 e.symm), if_neg (fun e => h2 e.symm)]

theorem exchange_ok {L : List Bool} {p q : Nat} (hp : p < L.length) (hq : q < L.length) :
    ∃ L', exchange L p q = some L' := by
  unfold exchange
  rw [List.getElem?_eq_getElem hp, List.getElem?_eq_getElem hq, Option.bind_some, Option.bind_some,
    set_ok _ hp, Option.bind_some, set_ok _ (by simpa using hq)]
  exact ⟨_, rfl⟩

end Live

/-! ## What a live position needs, per kind of instruction -/

/-- Results in place of operands. -/
theorem LiveIn.replace {L L' : List Bool} {h inp out : Nat} {G : List Bool} {b : Bool} (hl : LiveIn L h G)
    (hi : inp ≤ h) (hlow : ∀ j, j < h - inp → L'[j]? = some true → L[j]? = some true)
    (hnew : b = false → ∀ k, k < out → L'[h - inp + k]? ≠ some true) :
    LiveIn L' (h - inp + out) (List.replicate out b ++ G.drop inp) := by
  refine ⟨fun d hd hd' ht => ?_, fun d hd hd' => ?_⟩
  · by_cases ho : d < out
    · rw [List.getElem?_append_left (by simpa using ho), List.getElem?_replicate, if_pos ho]
      cases b with
      | true => rfl
      | false =>
        exfalso
        apply hnew rfl (out - 1 - d) (by omega)
        rw [← ht]; congr 1; omega
    · rw [List.length_append, List.length_replicate, List.length_drop] at hd'
      rw [List.getElem?_append_right (by simpa using ho), List.getElem?_drop, List.length_replicate]
      apply hl.live (inp + (d - out)) (by omega) (by omega)
      apply hlow _ (by omega)
      rw [← ht]; congr 1; omega
  · rw [List.length_append, List.length_replicate, List.length_drop] at hd'
    rw [List.getElem?_append_right (by simp; omega), List.getElem?_drop, List.length_replicate]
    exact hl.deep _ (by omega) (by omega)

/-- A new top word. -/
theorem LiveIn.push {L L' : List Bool} {h : Nat} {G : List Bool} {b : Bool} (hl : LiveIn L h G)
    (hlow : ∀ j, j < h → L'[j]? = some true → L[j]? = some true)
    (hnew : b = false → L'[h]? ≠ some true) : LiveIn L' (h + 1) (b :: G) := by
  have := hl.replace (inp := 0) (out := 1) (b := b) (Nat.zero_le _) (L' := L') (by simpa using hlow)
    (by intro hb k hk; have : k = 0 := by omega
        subst this; simpa using hnew hb)
  simpa using this

/-- Two positions overwritten. -/
theorem LiveIn.setTwo {L L' : List Bool} {h n m : Nat} {G : List Bool} {x y : Bool} (hl : LiveIn L h G)
    (hm : 1 ≤ m) (hh : n + m < h) (hG : n + m < G.length)
    (hlow : ∀ j, j < h → j ≠ h - 1 - n → j ≠ h - 1 - (n + m) → L'[j]? = some true → L[j]? = some true)
    (hx : L'[h - 1 - n]? = some true → x = true) (hy : L'[h - 1 - (n + m)]? = some true → y = true) :
    LiveIn L' h ((G.set n x).set (n + m) y) := by
  refine ⟨fun d hd hd' ht => ?_, fun d hd hd' => ?_⟩
  · rw [List.length_set, List.length_set] at hd'
    rw [List.getElem?_set, List.getElem?_set]
    by_cases h1 : n + m = d
    · rw [if_pos h1, if_pos (by simp; omega)]
      subst h1; rw [hy ht]
    · rw [if_neg h1]
      by_cases h2 : n = d
      · rw [if_pos h2, if_pos (by omega)]
        subst h2; rw [hx ht]
      · rw [if_neg h2]
        exact hl.live d hd hd' (hlow _ (by omega) (by omega) (by omega) ht)
  · rw [List.length_set, List.length_set] at hd'
    rw [List.getElem?_set_ne (by omega), List.getElem?_set_ne (by omega)]
    exact hl.deep d hd hd'

/-! ## The kinds of instructions -/

/-- What parsing gives for an instruction: not yet skipped, and the stack effect of its opcode and
immediate (none if it is disabled or unknown). -/
structure Wf (code : Code) (p : Nat × InstData) : Prop where
  noop : p.2.flags.noop = false
  off : (p.2.flags.disabled || p.2.flags.unknown) = true → p.2.stackIo = (0, 0)
  io : (p.2.flags.disabled || p.2.flags.unknown) = false →
    p.2.stackIo = computeStackIo p.2.opcode (some [UInt8.ofNat (code.imm p.1).toNat])


/-- Whether both positions are dead, as all shuffles test it. -/
def exDead (L : List Bool) (p q : Nat) : Option Bool :=
  (L[p]?).bind fun a => if a then some false else (L[q]?).map fun b => !b

/-- The kinds of live, enabled instructions. -/
inductive Kind (code : Code) (st : AIState) (i : Nat) (d : InstData) : Prop
  | exchange (n m : Nat) (hm : 1 ≤ m) (io : d.stackIo = (n + m + 1, n + m + 1))
      (low : lowerOf code st i d = .exchange n m)
      (dead : ∀ L h, n + m < h → Live.allDead L d.opcode h (n + m + 1) (n + m + 1)
        (decodeImm code i d.opcode) = exDead L (h - 1 - n) (h - 1 - (n + m)))
      (tr : ∀ L h s o, n + m < h → Live.transfer L d.opcode h (n + m + 1) (n + m + 1)
        (decodeImm code i d.opcode) s o = Live.exchange L (h - 1 - n) (h - 1 - (n + m)))
      (ns : d.maySuspend = false)
  | dup (n : Nat) (hn : 1 ≤ n) (io : d.stackIo = (n, n + 1)) (low : lowerOf code st i d = .dup n)
      (dead : ∀ L h, n ≤ h → Live.allDead L d.opcode h n (n + 1) (decodeImm code i d.opcode) =
        (L[h]?).map fun b => !b)
      (tr : ∀ L h s o, n ≤ h → Live.transfer L d.opcode h n (n + 1) (decodeImm code i d.opcode) s o =
        Live.transferDup L h n)
      (ns : d.maySuspend = false)
  | pop (io : d.stackIo = (1, 0)) (low : lowerOf code st i d = .popIgnore)
      (skip : canSkipWhenDead d.opcode = false)
      (tr : ∀ L h s o, Live.transfer L d.opcode h 1 0 (decodeImm code i d.opcode) s o =
        (Live.sub h 1).bind fun p => Live.set L p false)
      (ns : d.maySuspend = false)
  | fail (io : d.stackIo = (0, 0)) (low : lowerOf code st i d = .nop)
      (dead : ∀ L h, Live.allDead L d.opcode h 0 0 (decodeImm code i d.opcode) = some false)
      (tr : ∀ L h s o, Live.transfer L d.opcode h 0 0 (decodeImm code i d.opcode) s o = some L)
      (ns : d.maySuspend = false)
  | generic (io : d.stackIo.2 ≤ 1)
      (low : (d.isJump = true ∧ (∃ a c, lowerOf code st i d = .branch a (d.opcode == op.JUMPI) c) ∧
            d.stackIo = if d.opcode == op.JUMPI then (2, 0) else (1, 0)) ∨
          (d.maySuspend = true ∧ lowerOf code st i d = .suspend ∧ d.stackIo.2 = 1 ∧ 1 ≤ d.stackIo.1) ∨
          (d.maySuspend = false ∧ lowerOf code st i d = lowerPlain d.opcode d.stackIo.1 (st.constOperand i)))
      (dead : ∀ L h, d.stackIo.1 ≤ h →
        Live.allDead L d.opcode h d.stackIo.1 d.stackIo.2 (decodeImm code i d.opcode) =
          some (decide (0 < d.stackIo.2) && Live.rangeDead L (h - d.stackIo.1) d.stackIo.2))
      (tr : ∀ L h s o, Live.transfer L d.opcode h d.stackIo.1 d.stackIo.2 (decodeImm code i d.opcode) s o =
        Live.genericTransfer L h d.stackIo.1 d.stackIo.2 s o)

theorem shuffle_table : ∀ o : UInt8, ((0x80 ≤ o.toNat ∧ o.toNat ≤ 0x9f) ∨ o.toNat = 0xe6 ∨ o.toNat = 0xe7 ∨
      o.toNat = 0xe8 ∨ o.toNat = 0x50) →
    (o == op.JUMP) = false ∧ (o == op.JUMPI) = false ∧
      [op.CALL, op.CALLCODE, op.DELEGATECALL, op.STATICCALL, op.CREATE, op.CREATE2].contains o = false := by
  decide +kernel

theorem dup_table : ∀ o : UInt8, (0x80 ≤ o.toNat ∧ o.toNat ≤ 0x8f) →
    tableStackIo o = (o.toNat - 0x80 + 1, o.toNat - 0x80 + 2) ∧ o ≠ op.DUPN ∧ o ≠ op.SWAPN ∧ o ≠ op.EXCHANGE := by
  decide +kernel

theorem swap_table : ∀ o : UInt8, (0x90 ≤ o.toNat ∧ o.toNat ≤ 0x9f) →
    tableStackIo o = (o.toNat - 0x90 + 2, o.toNat - 0x90 + 2) ∧ o ≠ op.DUPN ∧ o ≠ op.SWAPN ∧ o ≠ op.EXCHANGE := by
  decide +kernel

theorem generic_table : ∀ o : UInt8, ¬ (0x80 ≤ o.toNat ∧ o.toNat ≤ 0x9f) → o.toNat ≠ 0xe6 → o.toNat ≠ 0xe7 →
    o.toNat ≠ 0xe8 → o.toNat ≠ 0x50 →
    (tableStackIo o).2 ≤ 1 ∧ o ≠ op.DUPN ∧ o ≠ op.SWAPN ∧ o ≠ op.EXCHANGE ∧
      ((o == op.JUMP) = true → (o == op.JUMPI) = false ∧ tableStackIo o = (1, 0)) ∧
      ((o == op.JUMPI) = true → tableStackIo o = (2, 0)) ∧
      ([op.CALL, op.CALLCODE, op.DELEGATECALL, op.STATICCALL, op.CREATE, op.CREATE2].contains o = true →
        (tableStackIo o).2 = 1 ∧ 1 ≤ (tableStackIo o).1) := by
  decide +kernel

theorem toNat_eq {o : UInt8} {k : Nat} (hk : k < 256) (h : o.toNat = k) : o = UInt8.ofNat k := by
  apply UInt8.toNat_inj.1
  rw [h]; simp; omega

theorem swapDead_eq {L : List Bool} {h k : Nat} (hk : k < h) :
    Live.swapDead L h k = exDead L (h - 1 - 0) (h - 1 - (0 + k)) := by
  unfold Live.swapDead exDead
  rw [Live.sub_ok (by omega), Option.bind_some, Live.sub_ok (by omega)]
  simp only [Option.bind_some, Nat.sub_zero, Nat.zero_add]

theorem transferSwap_eq {L : List Bool} {h k : Nat} (hk : k < h) :
    Live.transferSwap L h k = Live.exchange L (h - 1 - 0) (h - 1 - (0 + k)) := by
  unfold Live.transferSwap
  rw [Live.sub_ok (by omega), Option.bind_some, Live.sub_ok (by omega)]
  simp only [Option.bind_some, Nat.sub_zero, Nat.zero_add]

theorem single_shape (x : UInt8) : (decodeSingle x).all (fun k => decide (1 ≤ k.toNat)) = true := by
  revert x; decide +kernel

theorem pair_shape (x : UInt8) : (decodePair x).all (fun p => decide (p.1.toNat < p.2.toNat)) = true := by
  revert x; decide +kernel

theorem kind_of {code : Code} {st : AIState} {i : Nat} {d : InstData} (wf : Wf code (i, d))
    (hoff : (d.flags.disabled || d.flags.unknown) = false) : Kind code st i d := by
  have hio := wf.io hoff
  simp only at hio
  by_cases hsh : (0x80 ≤ d.opcode.toNat ∧ d.opcode.toNat ≤ 0x9f) ∨ d.opcode.toNat = 0xe6 ∨
      d.opcode.toNat = 0xe7 ∨ d.opcode.toNat = 0xe8 ∨ d.opcode.toNat = 0x50
  · obtain ⟨t1, t2, t3⟩ := shuffle_table d.opcode hsh
    have hj : d.isJump = false := by unfold InstData.isJump; rw [t1, t2]; rfl
    have hs : d.maySuspend = false := t3
    have hlow : lowerOf code st i d =
        (if d.opcode.toNat = 0x50 then .popIgnore
        else if 0x80 ≤ d.opcode.toNat ∧ d.opcode.toNat ≤ 0x8f then .dup (d.opcode.toNat - 0x80 + 1)
        else if 0x90 ≤ d.opcode.toNat ∧ d.opcode.toNat ≤ 0x9f then .exchange 0 (d.opcode.toNat - 0x90 + 1)
        else if d.opcode.toNat = 0xe6 then
          match decodeImm code i d.opcode with
          | some (.single k) => .dup k
          | _ => .nop
        else if d.opcode.toNat = 0xe7 then
          match decodeImm code i d.opcode with
          | some (.single k) => .exchange 0 k
          | _ => .nop
        else if d.opcode.toNat = 0xe8 then
          match decodeImm code i d.opcode with
          | some (.pair a b) => .exchange a (b - a)
          | _ => .nop
        else lowerPlain d.opcode d.stackIo.1 (st.constOperand i)) := by
      unfold lowerOf
      simp only [hoff, hj, hs, Bool.false_eq_true, if_false]
      rfl
    by_cases h50 : d.opcode.toNat = 0x50
    · have ho := toNat_eq (by omega) h50
      rw [if_pos h50] at hlow
      refine .pop (by rw [hio, ho]; rfl) hlow (by rw [ho]; rfl) (fun L h s o => ?_) hs
      unfold Live.transfer
      simp only [h50]
      rfl
    by_cases hd : 0x80 ≤ d.opcode.toNat ∧ d.opcode.toNat ≤ 0x8f
    · obtain ⟨a1, a2, a3, a4⟩ := dup_table _ hd
      rw [if_neg h50, if_pos hd] at hlow
      have hio' : d.stackIo = (d.opcode.toNat - 0x80 + 1, d.opcode.toNat - 0x80 + 2) := by
        rw [hio]; unfold computeStackIo; rw [if_neg a2, if_neg a3, if_neg a4, a1]
      refine .dup _ (by omega) hio' hlow (fun L h hh => ?_) (fun L h s o hh => ?_) hs
      · unfold Live.allDead; simp only
        rw [if_neg (by omega), if_pos hd]
      · unfold Live.transfer; simp only
        rw [if_neg (by omega), if_neg (by omega), if_pos hd]
    by_cases hw : 0x90 ≤ d.opcode.toNat ∧ d.opcode.toNat ≤ 0x9f
    · obtain ⟨a1, a2, a3, a4⟩ := swap_table _ hw
      rw [if_neg h50, if_neg hd, if_pos hw] at hlow
      have hio' : d.stackIo = (0 + (d.opcode.toNat - 0x90 + 1) + 1, 0 + (d.opcode.toNat - 0x90 + 1) + 1) := by
        rw [hio, Nat.zero_add]; unfold computeStackIo; rw [if_neg a2, if_neg a3, if_neg a4, a1]
      refine .exchange 0 _ (by omega) hio' hlow (fun L h hh => ?_) (fun L h s o hh => ?_) hs
      · unfold Live.allDead; simp only
        rw [if_pos hw, swapDead_eq (by omega)]
      · unfold Live.transfer; simp only
        rw [if_pos hw, transferSwap_eq (by omega)]
    rw [if_neg h50, if_neg hd, if_neg hw] at hlow
    by_cases h6 : d.opcode.toNat = 0xe6
    · have ho : d.opcode = op.DUPN := toNat_eq (k := 0xe6) (by omega) h6
      rw [if_pos h6] at hlow
      have hs1 := single_shape (UInt8.ofNat (code.imm i).toNat)
      have hdi : decodeImm code i d.opcode =
          (decodeSingle (UInt8.ofNat (code.imm i).toNat)).map fun n => .single n.toNat := by
        rw [ho]; rfl
      unfold computeStackIo at hio
      rw [if_pos ho] at hio
      simp only at hio
      cases hx : decodeSingle (UInt8.ofNat (code.imm i).toNat) with
      | none =>
        rw [hx] at hio hdi
        rw [hdi] at hlow
        refine .fail hio hlow (fun L h => ?_) (fun L h s o => ?_) hs
        · unfold Live.allDead; simp only [h6, hdi]; rfl
        · unfold Live.transfer; simp only [h6, hdi]; rfl
      | some k =>
        rw [hx] at hio hdi hs1
        rw [hdi] at hlow
        simp only [Option.all_some, decide_eq_true_eq] at hs1
        refine .dup k.toNat hs1 hio hlow (fun L h hh => ?_) (fun L h s o hh => ?_) hs
        · unfold Live.allDead; simp only [h6, hdi]; rfl
        · unfold Live.transfer; simp only [h6, hdi, Option.map_some]
          simp only [show (1 ≤ k.toNat ∧ k.toNat ≤ h) from ⟨hs1, hh⟩]
          rfl
    by_cases h7 : d.opcode.toNat = 0xe7
    · have ho : d.opcode = op.SWAPN := toNat_eq (k := 0xe7) (by omega) h7
      rw [if_neg h6, if_pos h7] at hlow
      have hs1 := single_shape (UInt8.ofNat (code.imm i).toNat)
      have hdi : decodeImm code i d.opcode =
          (decodeSingle (UInt8.ofNat (code.imm i).toNat)).map fun n => .single n.toNat := by
        rw [ho]; rfl
      unfold computeStackIo at hio
      rw [if_neg (by rw [ho]; decide), if_pos ho] at hio
      simp only at hio
      cases hx : decodeSingle (UInt8.ofNat (code.imm i).toNat) with
      | none =>
        rw [hx] at hio hdi
        rw [hdi] at hlow
        refine .fail hio hlow (fun L h => ?_) (fun L h s o => ?_) hs
        · unfold Live.allDead; simp only [h7, hdi]; rfl
        · unfold Live.transfer; simp only [h7, hdi]; rfl
      | some k =>
        rw [hx] at hio hdi hs1
        rw [hdi] at hlow
        simp only [Option.all_some, decide_eq_true_eq] at hs1
        refine .exchange 0 k.toNat hs1 (by rw [hio, Nat.zero_add]; rfl) hlow (fun L h hh => ?_)
          (fun L h s o hh => ?_) hs
        · rw [← swapDead_eq (by omega)]
          unfold Live.allDead; simp only [h7, hdi, Option.map_some]
          simp only [show k.toNat < h by omega]
          rfl
        · rw [← transferSwap_eq (by omega)]
          unfold Live.transfer; simp only [h7, hdi, Option.map_some]
          simp only [show k.toNat < h by omega]
          rfl
    · have h8 : d.opcode.toNat = 0xe8 := by omega
      have ho : d.opcode = op.EXCHANGE := toNat_eq (k := 0xe8) (by omega) h8
      rw [if_neg h6, if_neg h7, if_pos h8] at hlow
      have hs1 := pair_shape (UInt8.ofNat (code.imm i).toNat)
      have hdi : decodeImm code i d.opcode =
          (decodePair (UInt8.ofNat (code.imm i).toNat)).map fun p => .pair p.1.toNat p.2.toNat := by
        rw [ho]; rfl
      unfold computeStackIo at hio
      rw [if_neg (by rw [ho]; decide), if_neg (by rw [ho]; decide), if_pos ho] at hio
      simp only at hio
      cases hx : decodePair (UInt8.ofNat (code.imm i).toNat) with
      | none =>
        rw [hx] at hio hdi
        rw [hdi] at hlow
        refine .fail hio hlow (fun L h => ?_) (fun L h s o => ?_) hs
        · unfold Live.allDead; simp only [h8, hdi]; rfl
        · unfold Live.transfer; simp only [h8, hdi]; rfl
      | some k =>
        rw [hx] at hio hdi hs1
        rw [hdi] at hlow
        simp only [Option.all_some, decide_eq_true_eq] at hs1
        have e1 : k.1.toNat + (k.2.toNat - k.1.toNat) = k.2.toNat := by omega
        refine .exchange k.1.toNat (k.2.toNat - k.1.toNat) (by omega) (by rw [hio, e1]; rfl) hlow
          (fun L h hh => ?_) (fun L h s o hh => ?_) hs
        · rw [e1] at hh ⊢
          unfold Live.allDead exDead; simp only [h8, hdi, Option.map_some]
          simp only [hh]
          rw [Live.sub_ok (by omega), Option.bind_some, Live.sub_ok (by omega), Option.bind_some,
            Live.sub_ok (by omega)]
          rfl
        · rw [e1] at hh ⊢
          unfold Live.transfer Live.transferExchange; simp only [h8, hdi, Option.map_some]
          simp only [hh]
          rw [Live.sub_ok (by omega), Option.bind_some, Live.sub_ok (by omega), Option.bind_some,
            Live.sub_ok (by omega)]
          rfl
  · have g1 : ¬ (0x80 ≤ d.opcode.toNat ∧ d.opcode.toNat ≤ 0x9f) := by omega
    have g2 : d.opcode.toNat ≠ 0xe6 := by omega
    have g3 : d.opcode.toNat ≠ 0xe7 := by omega
    have g4 : d.opcode.toNat ≠ 0xe8 := by omega
    have g5 : d.opcode.toNat ≠ 0x50 := by omega
    obtain ⟨t1, t2, t3, t4, t5, t6, t7⟩ := generic_table d.opcode g1 g2 g3 g4 g5
    have hio' : d.stackIo = tableStackIo d.opcode := by
      rw [hio]; unfold computeStackIo; rw [if_neg t2, if_neg t3, if_neg t4]
    refine .generic (by rw [hio']; exact t1) ?_ (fun L h hh => ?_) (fun L h s o => ?_)
    · by_cases hj : d.isJump = true
      · refine .inl ⟨hj, ⟨!d.flags.invalidJump && (d.flags.multiJump || !d.flags.staticJump),
          d.opcode == op.JUMPI && !d.hasConstJumpiCondition, ?_⟩, ?_⟩
        · unfold lowerOf
          simp only [hoff, hj, Bool.false_eq_true, if_false, if_true]
        · rw [hio']
          unfold InstData.isJump at hj
          cases hji : (d.opcode == op.JUMPI) with
          | true => rw [if_pos rfl]; exact t6 hji
          | false =>
            rw [if_neg (by simp)]
            rw [hji, Bool.or_false] at hj
            exact (t5 hj).2
      · by_cases hs : d.maySuspend = true
        · refine .inr (.inl ⟨hs, ?_, ?_⟩)
          · unfold lowerOf
            simp only [hoff, hj, hs, Bool.false_eq_true, if_false, if_true]
          · rw [hio']; exact t7 hs
        · refine .inr (.inr ⟨by simpa using hs, ?_⟩)
          unfold lowerOf
          simp only [hoff, hj, hs, Bool.false_eq_true, if_false]
          rw [if_neg g5, if_neg (by omega), if_neg (by omega), if_neg g2, if_neg g3, if_neg g4]
    · unfold Live.allDead; simp only
      rw [if_neg (by omega), if_neg (by omega), if_neg g3, if_neg g2, if_neg g4, Live.sub_ok hh]
      by_cases ho : 0 < d.stackIo.2
      · rw [if_pos ho]; simp [ho]
      · rw [if_neg ho]; simp [ho]
    · unfold Live.transfer; simp only
      rw [if_neg (by omega), if_neg g3, if_neg (by omega), if_neg g2, if_neg g4, if_neg g5]

/-! ## One instruction -/

theorem asUsize_of {h : Nat} (hh : h < 2 ^ 64) : asUsize (h : Int) = h := by
  unfold asUsize
  rw [Int.emod_eq_of_lt (by omega) (by omega)]
  rfl

/-- The operands recorded for an instruction that has operands are all of them, or none were recorded. -/
def FullSnap (st : AIState) (p : Nat × InstData) : Prop :=
  0 < p.2.stackIo.1 → (st.inputs p.1).length = p.2.stackIo.1 ∨ st.inputs p.1 = []

theorem snap_const {st : AIState} {i : Nat} {d : InstData} (h : FullSnap st (i, d)) {k : Nat}
    (hk : k < d.stackIo.1) :
    (((st.inputs i)[k]?).bind AbsValue.asConst) = st.constOperand i (d.stackIo.1 - 1 - k) := by
  unfold AIState.constOperand
  rcases h (Nat.lt_of_le_of_lt (Nat.zero_le _) hk) with h | h
  · simp only at h
    rw [List.getElem?_reverse (by omega), h]
    congr 2
    omega
  · simp only at h
    rw [h]; rfl

theorem lowerPlain_shape (o : UInt8) (inp : Nat) (ci : Nat → Option Word) :
    (∀ n, lowerPlain o inp ci ≠ .dup n) ∧ (∀ n m, lowerPlain o inp ci ≠ .exchange n m) ∧
      (lowerPlain o inp ci).leaves = false ∧ lowerPlain o inp ci ≠ .popIgnore := by
  unfold lowerPlain
  split <;> try (simp [Lower.leaves]; done)
  split
  · simp [Lower.leaves]
  · split
    · simp [Lower.leaves]
    · split
      · simp [Lower.leaves]
      · split
        · simp [Lower.leaves]
        · split <;> simp [Lower.leaves]

/-- The instruction after the pass. -/
def mark (b : Bool) (d : InstData) : InstData :=
  if b then { d with flags := { d.flags with noop := true } } else d

theorem rangeDead_iff {L : List Bool} {base out : Nat} (h : Live.rangeDead L base out = true) {k : Nat}
    (hk : k < out) : L[base + k]? ≠ some true := by
  unfold Live.rangeDead at h
  rw [List.all_eq_true] at h
  have := h k (by simpa using hk)
  simp only [beq_iff_eq] at this
  rw [this]; simp

theorem exDead_true {L : List Bool} {p q : Nat} (h : exDead L p q = some true) :
    L[p]? = some false ∧ L[q]? = some false := by
  unfold exDead at h
  obtain ⟨a, ha, h⟩ := Option.bind_eq_some_iff.1 h
  cases a with
  | true => simp at h
  | false =>
    simp only [Bool.false_eq_true, if_false] at h
    obtain ⟨b, hb, h⟩ := Option.map_eq_some_iff.1 h
    cases b with
    | true => simp at h
    | false => exact ⟨ha, hb⟩

theorem suspend_noskip (o : UInt8)
    (h : [op.CALL, op.CALLCODE, op.DELEGATECALL, op.STATICCALL, op.CREATE, op.CREATE2].contains o = true) :
    canSkipWhenDead o = false := by
  revert o; decide +kernel

theorem lowerPlain_exp {o : UInt8} {inp : Nat} {ci : Nat → Option Word} (c : Word)
    (h : lowerPlain o inp ci = .expFold c) : 1 < inp := by
  apply Decidable.by_contra
  intro hi
  have hp : tryPeephole o ((List.range inp).map ci) (List.replicate inp none) = none := by
    rcases (show inp = 0 ∨ inp = 1 by omega) with rfl | rfl <;> rfl
  unfold lowerPlain at h
  rw [hp] at h
  simp only at h
  split at h
  · simp at h
  · split at h
    · simp at h
    · split at h
      · simp at h
      · split at h
        · simp at h
        · split at h <;> simp at h

/-- What the pass guarantees about one instruction. -/
theorem inst_ok {code : Code} {st : AIState} {act : Nat → List Word → List Word × E}
    {clob : Nat → Int → Word} {i : Nat} {d : InstData} {h : Nat} {L L0 : List Bool} {b : Bool}
    {G : List Bool} (wf : Wf code (i, d)) (snap : FullSnap st (i, d)) (hin : d.stackIo.1 ≤ h) (hG : d.stackIo.1 ≤ G.length)
    (hb : h - d.stackIo.1 + d.stackIo.2 < 2 ^ 64) (hb' : h < 2 ^ 64)
    (hco : ∀ c, 0 < d.stackIo.2 → st.constOutput i = some c →
      d.stackIo.2 = 1 ∨ ∃ n, lowerOf code st i d = .dup n)
    (he : dseInst code st i d h L = some (b, L0)) (hl : LiveIn L0 h G) :
    Readable (toT code st act clob (i, mark b d)) G ∧
      LiveIn L (h - d.stackIo.1 + d.stackIo.2) (maskNext (toT code st act clob (i, mark b d)) G) ∧
      (b = true → (lowerOf code st i d).leaves = false ∧ canSkipWhenDead d.opcode = true ∧
        d.isBranching = false) := by
  have hnoop : d.flags.noop = false := wf.noop
  unfold dseInst at he
  by_cases hoff : (d.flags.disabled || d.flags.unknown) = true
  · rw [if_pos (by rw [Bool.or_assoc, hoff]; simp)] at he
    simp only [Option.some.injEq, Prod.mk.injEq] at he
    obtain ⟨rfl, rfl⟩ := he
    have hio : d.stackIo = (0, 0) := wf.off hoff
    have hlow : lowerOf code st i d = .nop := by unfold lowerOf; simp only [hoff, if_true]
    refine ⟨?_, ?_, by simp⟩
    · intro _
      simp only [toT, mark, Bool.false_eq_true, if_false, hlow]
    · have : maskNext (toT code st act clob (i, mark false d)) G = G := by
        simp only [maskNext, toT, mark, Bool.false_eq_true, if_false, hlow, hnoop, hio, Nat.lt_irrefl,
          false_and, List.replicate_zero, List.drop_zero, List.nil_append]
      rw [this, hio]; exact hl
  · have hoff : (d.flags.disabled || d.flags.unknown) = false := by simpa using hoff
    rw [if_neg (by rw [Bool.or_assoc, hoff, hnoop]; simp)] at he
    simp only [asUsize_of hb'] at he
    have kd := kind_of (st := st) wf hoff
    obtain ⟨dead, hdead, he⟩ := Option.bind_eq_some_iff.1 he
    cases dead with
    | true =>
      rw [if_pos rfl] at he
      simp only [Option.some.injEq, Prod.mk.injEq] at he
      obtain ⟨rfl, rfl⟩ := he
      have hsk : (canSkipWhenDead d.opcode && !d.isBranching && !d.isDiverging) = true := by
        apply Decidable.by_contra
        intro hc; rw [if_neg hc] at hdead; simp at hdead
      rw [if_pos hsk] at hdead
      have hsk' : canSkipWhenDead d.opcode = true ∧ d.isBranching = false := by
        simp only [Bool.and_eq_true, Bool.not_eq_true'] at hsk
        exact hsk.1
      refine ⟨?_, ?_⟩
      · intro hc; simp [compiled, toT, mark] at hc
      cases kd with
      | exchange n m hm io low dead tr ns =>
        rw [io] at hin hG hdead ⊢
        simp only at hin hG hdead ⊢
        rw [dead L h (by omega)] at hdead
        obtain ⟨d1, d2⟩ := exDead_true hdead
        have e : maskNext (toT code st act clob (i, mark true d)) G = (G.set n false).set (n + m) false := by
          have : lowerOf code st i (mark true d) = .exchange n m := low
          simp only [maskNext, toT, this]
          rfl
        rw [e, show h - (n + m + 1) + (n + m + 1) = h by omega]
        refine ⟨hl.setTwo hm (by omega) (by omega) (fun _ _ _ _ h => h) (fun h => ?_) (fun h => ?_), fun _ => ⟨by rw [low]; rfl, hsk'.1, hsk'.2⟩⟩
        · rw [d1] at h; simp at h
        · rw [d2] at h; simp at h
      | dup n hn io low dead tr ns =>
        rw [io] at hin hG hdead ⊢
        simp only at hin hG hdead ⊢
        rw [dead L h hin] at hdead
        have e : maskNext (toT code st act clob (i, mark true d)) G = (st.constOutput i).isSome :: G := by
          have : lowerOf code st i (mark true d) = .dup n := low
          simp only [maskNext, toT, this]
          rfl
        rw [e, show h - n + (n + 1) = h + 1 by omega]
        refine ⟨hl.push (fun _ _ h => h) (fun _ h => ?_), fun _ => ⟨by rw [low]; rfl, hsk'.1, hsk'.2⟩⟩
        rw [h] at hdead; simp at hdead
      | pop io low skip tr ns => rw [skip] at hsk; simp at hsk
      | fail io low dead tr ns =>
        rw [io, dead] at hdead; simp at hdead
      | generic io low dead tr =>
        rw [dead L h hin] at hdead
        simp only [Option.some.injEq, Bool.and_eq_true, decide_eq_true_eq] at hdead
        obtain ⟨h1, h2⟩ := hdead
        have hlv : (∀ n, lowerOf code st i d ≠ .dup n) ∧ (∀ n m, lowerOf code st i d ≠ .exchange n m) ∧
            (lowerOf code st i d).leaves = false := by
          rcases low with ⟨hj, _, _⟩ | ⟨hs, _, _⟩ | ⟨_, hp⟩
          · exfalso
            have : d.isBranching = true := by
              unfold InstData.isBranching; rw [hj]; rfl
            rw [this] at hsk; simp at hsk
          · exfalso
            have := suspend_noskip _ hs
            rw [this] at hsk; simp at hsk
          · rw [hp]
            obtain ⟨a, b, c, _⟩ := lowerPlain_shape d.opcode d.stackIo.1 (st.constOperand i)
            exact ⟨a, b, c⟩
        refine ⟨?_, fun _ => ⟨hlv.2.2, hsk'.1, hsk'.2⟩⟩
        have e : maskNext (toT code st act clob (i, mark true d)) G =
            (if d.stackIo.1 = 0 ∧ d.stackIo.2 = 1 then (st.constOutput i).isSome :: G
             else List.replicate d.stackIo.2 false ++ G.drop d.stackIo.1) := by
          have : lowerOf code st i (mark true d) = lowerOf code st i d := rfl
          simp only [maskNext, toT, this]
          cases hx : lowerOf code st i d <;> try rfl
          · exact absurd hx (hlv.1 _)
          · exact absurd hx (hlv.2.1 _ _)
        rw [e]
        have hr : ∀ (b : Bool), LiveIn L (h - d.stackIo.1 + d.stackIo.2)
            (List.replicate d.stackIo.2 b ++ G.drop d.stackIo.1) := fun b =>
          hl.replace hin (fun _ _ h => h) (fun _ k hk => rangeDead_iff h2 hk)
        split
        · rename_i hz
          have := hr (st.constOutput i).isSome
          rw [hz.1, hz.2] at this ⊢
          simpa using this
        · exact hr false
    | false =>
      rw [if_neg (by simp)] at he
      obtain ⟨L1, htr, he⟩ := Option.bind_eq_some_iff.1 he
      cases kd with
      | exchange n m hm io low dead tr ns =>
        rw [ns, if_neg (by simp)] at he
        simp only [Option.some.injEq, Prod.mk.injEq] at he
        obtain ⟨rfl, rfl⟩ := he
        rw [io] at hin hG htr hco ⊢
        simp only at hin hG htr hco ⊢
        rw [tr L h _ _ (by omega)] at htr
        obtain ⟨l1, l2, l3, l4⟩ := Live.exchange_some htr
        have hnc : st.constOutput i = none := by
          cases hc : st.constOutput i with
          | none => rfl
          | some c =>
            rcases hco c (by omega) hc with h | ⟨k, h⟩
            · omega
            · rw [low] at h; simp at h
        refine ⟨?_, ?_, by simp⟩
        · intro _
          simp only [toT, mark, Bool.false_eq_true, if_false, low]
        · have e : maskNext (toT code st act clob (i, mark false d)) G =
            (G.set n ((st.constOperand i (n + m)).isSome || G.getD (n + m) false)).set (n + m)
              ((st.constOperand i n).isSome || G.getD n false) := by
            simp only [maskNext, toT, mark, Bool.false_eq_true, if_false, low, hnoop, hnc]
            simp
          rw [e, show h - (n + m + 1) + (n + m + 1) = h by omega]
          refine hl.setTwo hm (by omega) (by omega) (fun j _ j1 j2 hj => ?_) (fun hj => ?_) (fun hj => ?_)
          · rw [l4, if_neg j2, if_neg j1]; exact hj
          · have : G[n + m]? = some true := hl.live _ (by omega) (by omega) (by rw [l4, if_pos rfl]; exact hj)
            rw [List.getD_eq_getElem?_getD, this]; simp
          · have : G[n]? = some true := hl.live _ (by omega) (by omega)
              (by rw [l4, if_neg (by omega), if_pos rfl]; exact hj)
            rw [List.getD_eq_getElem?_getD, this]; simp
      | dup n hn io low dead tr ns =>
        rw [ns, if_neg (by simp)] at he
        simp only [Option.some.injEq, Prod.mk.injEq] at he
        obtain ⟨rfl, rfl⟩ := he
        rw [io] at hin hG htr hco ⊢
        simp only at hin hG htr hco ⊢
        rw [tr L h _ _ (by omega)] at htr
        unfold Live.transferDup at htr
        rw [Live.sub_ok hin, Option.bind_some] at htr
        obtain ⟨new, hnew, htr⟩ := Option.bind_eq_some_iff.1 htr
        obtain ⟨L2, hL2, htr⟩ := Option.bind_eq_some_iff.1 htr
        obtain ⟨hp, rfl⟩ := Live.set_some hL2
        have hfact : (∀ j : Nat, j < h → L[j]? = some true → L1[j]? = some true) ∧
            (new = true → L1[h - n]? = some true) := by
          cases new with
          | false =>
            rw [if_neg (by simp)] at htr
            have := Option.some.inj htr; subst this
            refine ⟨fun j hj h => ?_, by simp⟩
            rw [List.getElem?_set_ne (by omega)]; exact h
          | true =>
            rw [if_pos rfl] at htr
            obtain ⟨hq, rfl⟩ := Live.set_some htr
            refine ⟨fun j hj h => ?_, fun _ => by rw [List.getElem?_set_self hq]⟩
            rw [List.getElem?_set]
            split
            · first | rfl | rw [if_pos hq]
            · rw [List.getElem?_set_ne (by omega)]; exact h
        refine ⟨?_, ?_, by simp⟩
        · intro _
          simp only [toT, mark, Bool.false_eq_true, if_false, low]
        · have e : maskNext (toT code st act clob (i, mark false d)) G =
            (if (st.constOutput i).isSome then true
              else ((st.constOperand i (n - 1)).isSome || G.getD (n - 1) false)) :: G := by
            simp only [maskNext, toT, mark, Bool.false_eq_true, if_false, low, hnoop, io]
            cases st.constOutput i <;> simp
          rw [e, show h - n + (n + 1) = h + 1 by omega]
          refine hl.push hfact.1 (fun hb hj => ?_)
          rw [hnew] at hj
          have hn' := hfact.2 (Option.some.inj hj)
          have : G[n - 1]? = some true := hl.live _ (by omega) (by omega)
            (by rw [show h - 1 - (n - 1) = h - n by omega]; exact hn')
          rw [List.getD_eq_getElem?_getD, this] at hb
          revert hb; split <;> simp
      | pop io low skip tr ns =>
        rw [ns, if_neg (by simp)] at he
        simp only [Option.some.injEq, Prod.mk.injEq] at he
        obtain ⟨rfl, rfl⟩ := he
        rw [io] at hin htr ⊢
        simp only at hin htr ⊢
        rw [tr, Live.sub_ok hin, Option.bind_some] at htr
        obtain ⟨hp, rfl⟩ := Live.set_some htr
        refine ⟨?_, ?_, by simp⟩
        · intro _
          simp only [toT, mark, Bool.false_eq_true, if_false, low]
        · have e : maskNext (toT code st act clob (i, mark false d)) G = List.replicate 0 true ++ G.drop 1 := by
            simp only [maskNext, toT, mark, Bool.false_eq_true, if_false, low, hnoop, io]
            simp
          rw [e]
          refine hl.replace hin (fun j hj h => ?_) (fun _ k hk => by omega)
          rw [List.getElem?_set_ne (by omega)]; exact h
      | fail io low dead tr ns =>
        rw [ns, if_neg (by simp)] at he
        simp only [Option.some.injEq, Prod.mk.injEq] at he
        obtain ⟨rfl, rfl⟩ := he
        rw [io] at hin htr ⊢
        simp only at hin htr ⊢
        rw [tr] at htr
        have := Option.some.inj htr; subst this
        refine ⟨?_, ?_, by simp⟩
        · intro _
          simp only [toT, mark, Bool.false_eq_true, if_false, low]
        · have e : maskNext (toT code st act clob (i, mark false d)) G = G := by
            simp only [maskNext, toT, mark, Bool.false_eq_true, if_false, low, hnoop, io]
            simp
          rw [e]; exact hl
      | generic io low dead tr =>
        rw [tr] at htr
        unfold Live.genericTransfer at htr
        rw [Live.sub_ok hin, Option.bind_some] at htr
        obtain ⟨L2, hk, htr⟩ := Option.bind_eq_some_iff.1 htr
        obtain ⟨k1, k2⟩ := Live.killFrom_some _ _ hk
        change (if 0 < d.stackIo.2 ∧ (st.constOutput i).isSome = true then some L2
          else Live.markFrom (st.inputs i) (h - d.stackIo.1) d.stackIo.1 0 L2) = some L1 at htr
        -- facts about the liveness before the marking of a suspension
        have hf : (∀ j : Nat, j < h - d.stackIo.1 → L[j]? = some true → L1[j]? = some true) ∧
            (¬ (0 < d.stackIo.2 ∧ (st.constOutput i).isSome = true) → ∀ q, q < d.stackIo.1 →
              st.constOperand i q = none → L1[h - 1 - q]? = some true) := by
          have hlow2 : ∀ j : Nat, j < h - d.stackIo.1 → L[j]? = some true → L2[j]? = some true := by
            intro j hj h
            rw [k2, if_neg (by omega)]; exact h
          by_cases hc : 0 < d.stackIo.2 ∧ (st.constOutput i).isSome = true
          · rw [if_pos hc] at htr
            have := Option.some.inj htr; subst this
            exact ⟨hlow2, fun h => absurd hc h⟩
          · rw [if_neg hc] at htr
            obtain ⟨m1, m2, m3, m4⟩ := Live.markFrom_some _ _ _ _ htr
            refine ⟨fun j hj h => m2 _ (hlow2 j hj h), fun _ q hq hn => ?_⟩
            have := m4 (d.stackIo.1 - 1 - q) (by omega) (by omega) (by
              rw [snap_const snap (by omega),
                show d.stackIo.1 - 1 - (d.stackIo.1 - 1 - q) = q by omega, hn]; rfl)
            rw [← this]; congr 1; omega
        have hf0 : b = false ∧ (∀ j : Nat, j < h - d.stackIo.1 → L[j]? = some true → L0[j]? = some true) ∧
            (¬ (0 < d.stackIo.2 ∧ (st.constOutput i).isSome = true) → ∀ q, q < d.stackIo.1 →
              st.constOperand i q = none → L0[h - 1 - q]? = some true) ∧
            (d.maySuspend = true → ∀ j : Nat, j < h - d.stackIo.1 + d.stackIo.2 → L0[j]? = some true) := by
          by_cases hs : d.maySuspend = true
          · rw [if_pos hs] at he
            have ha : asUsize ((h : Int) + ((d.stackIo.2 : Int) - d.stackIo.1)) = h - d.stackIo.1 + d.stackIo.2 := by
              rw [show (h : Int) + ((d.stackIo.2 : Int) - d.stackIo.1) =
                ((h - d.stackIo.1 + d.stackIo.2 : Nat) : Int) by omega]
              exact asUsize_of hb
            rw [ha] at he
            by_cases hle : h - d.stackIo.1 + d.stackIo.2 ≤ L1.length
            · rw [if_pos hle] at he
              simp only [Option.some.injEq, Prod.mk.injEq] at he
              obtain ⟨rfl, rfl⟩ := he
              have hup : ∀ j : Nat, L1[j]? = some true →
                  (List.replicate (h - d.stackIo.1 + d.stackIo.2) true ++
                    L1.drop (h - d.stackIo.1 + d.stackIo.2))[j]? = some true := by
                intro j hj
                rw [List.getElem?_append, List.length_replicate]
                split
                · rw [List.getElem?_replicate]; rename_i hh; rw [if_pos hh]
                · rw [List.getElem?_drop, ← hj]; congr 1; omega
              refine ⟨rfl, fun j hj h => hup j (hf.1 j hj h), fun hc q hq hn => hup _ (hf.2 hc q hq hn),
                fun _ j hj => ?_⟩
              rw [List.getElem?_append_left (by simpa using hj), List.getElem?_replicate, if_pos hj]
            · rw [if_neg hle] at he; simp at he
          · rw [if_neg hs] at he
            simp only [Option.some.injEq, Prod.mk.injEq] at he
            obtain ⟨rfl, rfl⟩ := he
            exact ⟨rfl, hf.1, hf.2, fun h => absurd h hs⟩
        obtain ⟨rfl, q1, q2, q3⟩ := hf0
        have hmk : mark false d = d := rfl
        rw [hmk]
        refine ⟨?_, ?_, by simp⟩
        · intro hc
          have hnc : ¬ (0 < d.stackIo.2 ∧ (st.constOutput i).isSome = true) := by
            intro h; simp [compiled, toT, h.1, h.2] at hc
          have hrd : ∀ q, q < d.stackIo.1 → (st.constOperand i q).isSome = true ∨ G[q]? = some true := by
            intro q hq
            cases hx : st.constOperand i q with
            | some c => exact .inl rfl
            | none => exact .inr (hl.live q (by omega) (by omega) (q2 hnc q hq hx))
          rcases low with ⟨hj, ⟨a, c, hlow⟩, hio⟩ | ⟨hs, hlow, ho, _⟩ | ⟨_, hp⟩
          · simp only [toT, hlow]
            refine ⟨fun _ => hrd 0 ?_, fun hji _ => hrd 1 ?_⟩
            · rw [hio]; split <;> simp
            · rw [hio, hji]; simp
          · simp only [toT, hlow]
            refine ⟨hrd, fun q hq hq' => ?_⟩
            by_cases hqh : q < h
            · exact hl.live q hqh hq' (q3 hs _ (by omega))
            · exact hl.deep q (by omega) hq'
          · have hexp := lowerPlain_exp (o := d.opcode) (inp := d.stackIo.1) (ci := st.constOperand i)
            obtain ⟨s1, s2, s3, s4⟩ := lowerPlain_shape d.opcode d.stackIo.1 (st.constOperand i)
            simp only [toT, hp]
            cases hx : lowerPlain d.opcode d.stackIo.1 (st.constOperand i) <;> simp only
            · exact hrd
            · exact hrd
            · exact hrd
            · exact hrd 1 (hexp _ hx)
            · rw [hx] at s3; simp [Lower.leaves] at s3
            · rw [hx] at s3; simp [Lower.leaves] at s3
        · have hlv : (∀ n, lowerOf code st i d ≠ .dup n) ∧ (∀ n m, lowerOf code st i d ≠ .exchange n m) := by
            rcases low with ⟨hj, ⟨a, c, hlow⟩, _⟩ | ⟨hs, hlow, _⟩ | ⟨_, hp⟩
            · rw [hlow]; simp
            · rw [hlow]; simp
            · rw [hp]
              obtain ⟨a, b, _, _⟩ := lowerPlain_shape d.opcode d.stackIo.1 (st.constOperand i)
              exact ⟨a, b⟩
          have e : maskNext (toT code st act clob (i, d)) G =
              List.replicate d.stackIo.2 true ++ G.drop d.stackIo.1 := by
            simp only [maskNext, toT, hnoop, Bool.false_eq_true, if_false]
            cases hx : lowerOf code st i d <;> try (split <;> rfl)
            · exact absurd hx (hlv.1 _)
            · exact absurd hx (hlv.2 _ _)
          rw [e]
          exact hl.replace hin q1 (by simp)

end Verif
