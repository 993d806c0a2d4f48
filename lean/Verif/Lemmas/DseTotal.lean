import Verif.Lemmas.DseBlock
/-!
# When the pass does not panic
-/

namespace Verif
open Spec

theorem exDead_ok {L : List Bool} {p q : Nat} (hp : p < L.length) (hq : q < L.length) :
    ∃ b, exDead L p q = some b := by
  unfold exDead
  rw [List.getElem?_eq_getElem hp, List.getElem?_eq_getElem hq, Option.bind_some]
  split <;> exact ⟨_, rfl⟩

theorem allDead_ok {code : Code} {st : AIState} {i : Nat} {d : InstData} {h : Nat} {L : List Bool}
    (kd : Kind code st i d) (hin : d.stackIo.1 ≤ h) (hL : h ≤ L.length)
    (hL' : h - d.stackIo.1 + d.stackIo.2 ≤ L.length) (hsk : canSkipWhenDead d.opcode = true) :
    ∃ b, Live.allDead L d.opcode h d.stackIo.1 d.stackIo.2 (decodeImm code i d.opcode) = some b := by
  cases kd with
  | exchange n m hm io low dead tr ns =>
    rw [io] at hin ⊢
    simp only at hin ⊢
    rw [dead L h (by omega)]
    exact exDead_ok (by omega) (by omega)
  | dup n hn io low dead tr ns =>
    rw [io] at hin hL' ⊢
    simp only at hin hL' ⊢
    rw [dead L h hin, List.getElem?_eq_getElem (show h < L.length by omega)]
    exact ⟨_, rfl⟩
  | pop io low skip tr ns => rw [skip] at hsk; simp at hsk
  | fail io low dead tr ns => rw [io, dead]; exact ⟨_, rfl⟩
  | generic io low dead tr => rw [dead L h hin]; exact ⟨_, rfl⟩

theorem transfer_ok {code : Code} {st : AIState} {i : Nat} {d : InstData} {h : Nat} {L : List Bool}
    (kd : Kind code st i d) (hin : d.stackIo.1 ≤ h) (hL : h ≤ L.length)
    (hL' : h - d.stackIo.1 + d.stackIo.2 ≤ L.length) (s : List AbsValue) (o : Option AbsValue) :
    ∃ L1, Live.transfer L d.opcode h d.stackIo.1 d.stackIo.2 (decodeImm code i d.opcode) s o = some L1 ∧
      L1.length = L.length := by
  cases kd with
  | exchange n m hm io low dead tr ns =>
    rw [io] at hin ⊢
    simp only at hin ⊢
    rw [tr L h _ _ (by omega)]
    obtain ⟨L1, h1⟩ := Live.exchange_ok (L := L) (p := h - 1 - n) (q := h - 1 - (n + m)) (by omega) (by omega)
    exact ⟨L1, h1, (Live.exchange_some h1).2.2.1⟩
  | dup n hn io low dead tr ns =>
    rw [io] at hin hL' ⊢
    simp only at hin hL' ⊢
    rw [tr L h _ _ hin]
    unfold Live.transferDup
    rw [Live.sub_ok hin, Option.bind_some, List.getElem?_eq_getElem (show h < L.length by omega),
      Option.bind_some, Live.set_ok _ (by omega), Option.bind_some]
    split
    · exact ⟨_, Live.set_ok _ (by simp; omega), by simp⟩
    · exact ⟨_, rfl, by simp⟩
  | pop io low skip tr ns =>
    rw [io] at hin ⊢
    simp only at hin ⊢
    rw [tr, Live.sub_ok hin, Option.bind_some]
    exact ⟨_, Live.set_ok _ (by omega), by simp⟩
  | fail io low dead tr ns =>
    rw [io]; simp only; rw [tr]; exact ⟨_, rfl, rfl⟩
  | generic io low dead tr =>
    rw [tr]
    unfold Live.genericTransfer
    rw [Live.sub_ok hin, Option.bind_some]
    obtain ⟨L2, h2⟩ := Live.killFrom_ok (h - d.stackIo.1) d.stackIo.2 hL'
    have hl2 := (Live.killFrom_some _ _ h2).1
    rw [h2, Option.bind_some]
    split
    · exact ⟨_, rfl, hl2⟩
    · obtain ⟨L3, h3⟩ := Live.markFrom_ok s (h - d.stackIo.1) d.stackIo.1 0 (L := L2) (by omega)
      exact ⟨L3, h3, by rw [(Live.markFrom_some _ _ _ _ h3).1, hl2]⟩

theorem inst_some {code : Code} {st : AIState} {i : Nat} {d : InstData} {h : Nat} {L : List Bool}
    (wf : Wf code (i, d)) (hin : d.stackIo.1 ≤ h) (hb : h - d.stackIo.1 + d.stackIo.2 < 2 ^ 64) (hb' : h < 2 ^ 64)
    (hL : h ≤ L.length) (hL' : h - d.stackIo.1 + d.stackIo.2 ≤ L.length) :
    ∃ b L0, dseInst code st i d h L = some (b, L0) ∧ L0.length = L.length := by
  have hnoop : d.flags.noop = false := wf.noop
  unfold dseInst
  by_cases hoff : (d.flags.disabled || d.flags.unknown) = true
  · rw [if_pos (by rw [Bool.or_assoc, hoff]; simp)]
    exact ⟨_, _, rfl, rfl⟩
  · have hoff : (d.flags.disabled || d.flags.unknown) = false := by simpa using hoff
    rw [if_neg (by rw [Bool.or_assoc, hoff, hnoop]; simp)]
    simp only [asUsize_of hb']
    have kd := kind_of (st := st) wf hoff
    have hd : ∃ b, (if (canSkipWhenDead d.opcode && !d.isBranching && !d.isDiverging) = true then
        Live.allDead L d.opcode h d.stackIo.1 d.stackIo.2 (decodeImm code i d.opcode)
        else some false) = some b := by
      split
      · rename_i hs
        simp only [Bool.and_eq_true] at hs
        exact allDead_ok kd hin hL hL' hs.1.1
      · exact ⟨_, rfl⟩
    obtain ⟨b, hd⟩ := hd
    rw [hd, Option.bind_some]
    split
    · exact ⟨_, _, rfl, rfl⟩
    · obtain ⟨L1, h1, l1⟩ := transfer_ok kd hin hL hL' (st.inputs i) (st.outputs i)
      rw [h1, Option.bind_some]
      split
      · rw [show (h : Int) + ((d.stackIo.2 : Int) - d.stackIo.1) =
          ((h - d.stackIo.1 + d.stackIo.2 : Nat) : Int) by omega, asUsize_of hb, if_pos (by omega)]
        exact ⟨_, _, rfl, by simp; omega⟩
      · exact ⟨_, _, rfl, l1⟩

theorem walk_some {code : Code} {st : AIState} (l : List (Nat × InstData)) {a : StackAcc} {I M : Int}
    {L : List Bool} (wf : ∀ p ∈ l, Wf code p) (h : Window l a I M)
    (hlo : -I ≤ a.diff) (hhi : a.diff ≤ M) (hb : I + M ≤ 98302) (hL : (L.length : Int) = I + M) :
    ∃ l' L0, dseWalk code st l (((I + a.diff).toNat : Nat) : Int) L = some (l', L0) ∧ L0.length = L.length := by
  induction l generalizing a with
  | nil => exact ⟨[], L, rfl, rfl⟩
  | cons p l ih =>
    obtain ⟨i, d⟩ := p
    obtain ⟨h1, h2, h3⟩ := h.head
    simp only at h1 h2 h3
    have e : (a.process d.stackIo.1 d.stackIo.2).diff = a.diff + ((d.stackIo.2 : Int) - d.stackIo.1) := rfl
    obtain ⟨l1, L1, i1, i2⟩ := ih (fun p hp => wf p (by simp [hp])) h3 (by omega) (by omega)
    obtain ⟨b, L0, j1, j2⟩ := inst_some (st := st) (h := (I + a.diff).toNat) (L := L1) (wf (i, d) (by simp))
      (by omega) (by omega) (by omega) (by omega) (by omega)
    rw [dseWalk, show (((I + a.diff).toNat : Nat) : Int) + ((d.stackIo.2 : Int) - d.stackIo.1) =
      (((I + (a.process d.stackIo.1 d.stackIo.2).diff).toNat : Nat) : Int) by omega, i1, Option.bind_some, j1]
    exact ⟨_, _, rfl, by rw [j2, i2]⟩

theorem block_some {code : Code} {st : AIState} (inspect : Bool) {l : List (Nat × InstData)}
    (wf : ∀ p ∈ l, Wf code p) (hI : (blockAcc l).inputs ≤ 65535) (hM : (blockAcc l).maxGrowth ≤ 32767) :
    ∃ l', dseBlock inspect code st l = some l' := by
  have e0 : (({} : StackAcc).diff) = 0 := rfl
  have e1 : (({} : StackAcc).inputs) = 0 := rfl
  have e2 : (({} : StackAcc).maxGrowth) = 0 := rfl
  have hmono : ({} : StackAcc).inputs ≤ (blockAcc l).inputs ∧ ({} : StackAcc).maxGrowth ≤ (blockAcc l).maxGrowth :=
    window_mono l {}
  have hwin : Window l {} (blockAcc l).inputs (blockAcc l).maxGrowth := ⟨Int.le_refl _, Int.le_refl _⟩
  have hdiff : -(blockAcc l).inputs ≤ (blockAcc l).diff ∧ (blockAcc l).diff ≤ (blockAcc l).maxGrowth := by
    have := Window.append (as := l) (bs := []) (I := (blockAcc l).inputs) (M := (blockAcc l).maxGrowth)
      (by rw [List.append_nil]; exact hwin) (by omega) (by omega)
    exact this.2.2
  have hsec : (blockAcc l).section.inputs = (blockAcc l).inputs.toNat ∧
      (blockAcc l).section.maxGrowth = (blockAcc l).maxGrowth := by
    unfold StackAcc.section
    simp only
    rw [if_pos (by omega), if_pos (by omega)]; simp
  unfold dseBlock
  simp only [hsec.1, hsec.2]
  split
  · exact ⟨_, rfl⟩
  · generalize hL : (List.replicate (max ((((blockAcc l).inputs.toNat : Nat) : Int) + (blockAcc l).diff) 0).toNat
      (!termDiverges inspect l)).take (max ((((blockAcc l).inputs.toNat : Nat) : Int) + (blockAcc l).maxGrowth) 0).toNat ++
      List.replicate ((max ((((blockAcc l).inputs.toNat : Nat) : Int) + (blockAcc l).maxGrowth) 0).toNat -
        (max ((((blockAcc l).inputs.toNat : Nat) : Int) + (blockAcc l).diff) 0).toNat) false = L
    have hlen : (L.length : Int) = (blockAcc l).inputs + (blockAcc l).maxGrowth := by
      rw [← hL]; simp only [List.length_append, List.length_take, List.length_replicate]; omega
    obtain ⟨l', L0, h1, _⟩ := walk_some (st := st) l wf hwin (by omega) (by omega) (by omega) hlen
    rw [e0, Int.add_zero] at h1
    rw [h1]
    exact ⟨_, rfl⟩

/-- A panic at the last of equal instructions is a panic in the block. -/
theorem walk_panic {code : Code} {st : AIState} {d : InstData} (l : List (Nat × InstData))
    (hne : l ≠ []) (hd : ∀ p ∈ l, p.2 = d) {h : Int} {L : List Bool}
    (hin : ∀ i L, dseInst code st i d (h + ((l.length : Int) - 1) * ((d.stackIo.2 : Int) - d.stackIo.1)) L = none) :
    dseWalk code st l h L = none := by
  induction l generalizing h with
  | nil => exact absurd rfl hne
  | cons p l ih =>
    obtain ⟨i, d'⟩ := p
    have hd1 : d' = d := hd (i, d') (by simp)
    subst hd1
    cases l with
    | nil =>
      simp only [List.length_singleton, Int.cast_ofNat_Int, Int.sub_self, Int.zero_mul, Int.add_zero] at hin
      simp only [dseWalk, Option.bind_some, hin, Option.map_none]
    | cons q l =>
      rw [dseWalk, ih (by simp) (fun p hp => hd p (by simp [hp]))]
      · rfl
      · intro i L
        have := hin i L
        generalize hk : (d'.stackIo.2 : Int) - d'.stackIo.1 = k at *
        rw [List.length_cons, Int.natCast_add, Int.cast_ofNat_Int] at this
        rw [show h + k + (((q :: l).length : Int) - 1) * k = h + (((q :: l).length : Int) + 1 - 1) * k by
          rw [Int.add_sub_cancel, Int.sub_mul]; omega]
        exact this

/-- Block bounds of a repeated consumer. -/
theorem acc_repeat {d : InstData} {k : Nat} (hio : d.stackIo = (k, 0)) (l : List (Nat × InstData))
    (hd : ∀ p ∈ l, p.2 = d) (a : StackAcc) (ha : a.inputs = -a.diff) (hg : 0 ≤ a.maxGrowth) (hi : 0 ≤ a.inputs) :
    l.foldl (fun a p => a.process p.2.stackIo.1 p.2.stackIo.2) a =
      { inputs := a.inputs + l.length * k, diff := a.diff - l.length * k, maxGrowth := a.maxGrowth } := by
  induction l generalizing a with
  | nil => simp
  | cons p l ih =>
    have hd1 : p.2 = d := hd p (by simp)
    have e1 : (a.process k 0).inputs = max a.inputs ((k : Int) - a.diff) := rfl
    have e2 : (a.process k 0).diff = a.diff + ((0 : Int) - k) := rfl
    have e3 : (a.process k 0).maxGrowth = max a.maxGrowth (a.diff + ((0 : Int) - k)) := rfl
    rw [List.foldl_cons, hd1, hio, ih (fun p hp => hd p (by simp [hp])) (a.process k 0) (by omega) (by omega) (by omega)]
    simp only [e1, e2, e3, List.length_cons, Int.natCast_add, Int.cast_ofNat_Int, Int.add_mul, Int.one_mul,
      StackAcc.mk.injEq]
    refine ⟨by omega, by omega, by omega⟩

end Verif
