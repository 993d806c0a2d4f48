import Verif.Spec.MemSections
import Verif.Lemmas.Byte
/-!
# Helper lemmas: memory sections
-/

namespace Verif
open Spec

/-! ## Accesses -/

/-- What is known about an access is right for the range (nothing is claimed for an unknown length). -/
def Desc (a : Option Nat × Option Nat) (r : Nat × Nat) : Prop :=
  (a.2.isSome → ∀ o, a.1 = some o → r.1 = o) ∧ (∀ l, a.2 = some l → r.2 = l)

def Small (r : Nat × Nat) : Prop := r.2 ≠ 0 → r.1 + r.2 < 2 ^ 63

/-- Known accesses and ranges, pairwise. -/
inductive DescAll : List (Option Nat × Option Nat) → List (Nat × Nat) → Prop
  | nil : DescAll [] []
  | cons {a r as rs} : Desc a r → Small r → DescAll as rs → DescAll (a :: as) (r :: rs)

theorem roundMem_eq {n : Nat} (h : n < 2 ^ 63) : roundMem n = 32 * ((n + 31) / 32) := by
  unfold roundMem satAdd
  rw [Nat.min_eq_left (by omega)]; omega

theorem satAdd_eq {a b : Nat} (h : a + b < 2 ^ 63) : satAdd a b = a + b := by
  unfold satAdd; omega

theorem exact_grow {a : Option Nat × Option Nat} {r : Nat × Nat} (h : Desc a r) (hs : Small r) {e m : Nat}
    (he : exactMem a = some e) : grow m r = max m e := by
  unfold exactMem at he
  unfold grow
  split at he
  · rename_i hz
    rw [if_pos (h.2 0 hz)]
    have := Option.some.inj he
    omega
  · rename_i hz
    obtain ⟨o, ho, he⟩ := Option.bind_eq_some_iff.1 he
    obtain ⟨l, hl, he⟩ := Option.map_eq_some_iff.1 he
    have h1 := h.1 (by rw [hl]; rfl) o ho
    have h2 := h.2 l hl
    have hl0 : l ≠ 0 := fun h0 => hz (by rw [hl, h0])
    rw [if_neg (by omega)]
    have := hs (by omega)
    rw [satAdd_eq (by omega), roundMem_eq (by omega)] at he
    rw [h1, h2, he]

theorem min_grow {a : Option Nat × Option Nat} {r : Nat × Nat} (h : Desc a r) (hs : Small r) (m : Nat) :
    minMem a ≤ grow m r := by
  unfold minMem grow
  split
  · exact Nat.zero_le _
  · rename_i l hl
    have h2 := h.2 l hl
    split
    · exact Nat.zero_le _
    · rename_i hl0
      rw [if_neg (by omega)]
      have := hs (by omega)
      split
      · rename_i o ho
        have h1 := h.1 (by rw [hl]; rfl) o ho
        rw [satAdd_eq (by omega), roundMem_eq (by omega), h1, h2]
        omega
      · rw [roundMem_eq (by omega), h2]
        omega

theorem min_exact {a : Option Nat × Option Nat} (h1 : a.1.isSome) (h2 : a.2.isSome) :
    exactMem a = some (minMem a) := by
  obtain ⟨x, y⟩ := a
  obtain ⟨o, rfl⟩ := Option.isSome_iff_exists.1 h1
  obtain ⟨l, rfl⟩ := Option.isSome_iff_exists.1 h2
  unfold exactMem minMem
  simp only [Option.some.injEq]
  split <;> rfl

theorem grow_le (m : Nat) (r : Nat × Nat) : m ≤ grow m r := by
  unfold grow; split <;> omega

theorem growAll_le (rs : List (Nat × Nat)) (m : Nat) : m ≤ growAll m rs := by
  unfold growAll
  induction rs generalizing m with
  | nil => exact Nat.le_refl _
  | cons r rs ih => exact Nat.le_trans (grow_le m r) (ih _)

/-! ## Opcodes -/

theorem op_table : ∀ o : UInt8,
    (o == op.KECCAK256) = decide (o.toNat = 0x20) ∧ (o == op.RETURN) = decide (o.toNat = 0xf3) ∧
    (o == op.REVERT) = decide (o.toNat = 0xfd) ∧ (o == op.LOG0) = decide (o.toNat = 0xa0) ∧
    (o == op.MLOAD) = decide (o.toNat = 0x51) ∧ (o == op.MSTORE) = decide (o.toNat = 0x52) ∧
    (o == op.MSTORE8) = decide (o.toNat = 0x53) ∧ (o == op.CALLDATACOPY) = decide (o.toNat = 0x37) ∧
    (o == op.CODECOPY) = decide (o.toNat = 0x39) ∧ (o == op.RETURNDATACOPY) = decide (o.toNat = 0x3e) ∧
    (o == op.EXTCODECOPY) = decide (o.toNat = 0x3c) ∧ (o == op.MCOPY) = decide (o.toNat = 0x5e) ∧
    (o == op.LOG1) = decide (o.toNat = 0xa1) ∧ (o == op.LOG2) = decide (o.toNat = 0xa2) ∧
    (o == op.LOG3) = decide (o.toNat = 0xa3) ∧ (o == op.LOG4) = decide (o.toNat = 0xa4) ∧
    (o == op.CREATE) = decide (o.toNat = 0xf0) ∧ (o == op.CREATE2) = decide (o.toNat = 0xf5) ∧
    (o == op.CALL) = decide (o.toNat = 0xf1) ∧ (o == op.CALLCODE) = decide (o.toNat = 0xf2) ∧
    (o == op.DELEGATECALL) = decide (o.toNat = 0xf4) ∧ (o == op.STATICCALL) = decide (o.toNat = 0xfa) := by
  decide +kernel

/-- The known accesses of an instruction describe ranges with the same effect as the EVM's. -/
theorem accesses_desc {st : AIState} {p : Nat × InstData} {args : List Word} (h : Runs st p args)
    (hlog : NoSmallTopic st p) :
    ∃ rs, DescAll (constMemAccesses st p.1 p.2) rs ∧
      ∀ m, growAll m (memRanges p.2.opcode.toNat args) = growAll m rs := by
  obtain ⟨i, d⟩ := p
  obtain ⟨on, hk, hs⟩ := h
  simp only at *
  -- a known operand is the operand
  have hop : ∀ k o, ((st.constOperand i k).bind fun w => if w.toNat < 2 ^ 64 then some w.toNat else none) = some o →
      (args[k]?.getD 0).toNat = o := by
    intro k o ho
    obtain ⟨c, hc, ho⟩ := Option.bind_eq_some_iff.1 ho
    split at ho
    · rw [hk k c hc]; exact Option.some.inj ho
    · simp at ho
  have hsome : ∀ n k l, (some n : Option Nat) = some l → k = n → k = l := by
    intro n k l e1 e2
    have := Option.some.inj e1
    omega
  obtain ⟨t1, t2, t3, t4, t5, t6, t7, t8, t9, t10, t11, t12, t13, t14, t15, t16, t17, t18, t19, t20, t21, t22⟩ :=
    op_table d.opcode
  have hnone : ∀ n, 1 ≤ n → n ≤ 4 → d.opcode.toNat = 0xa0 + n →
      ((st.constOperand i (n + 1)).bind fun w => if w.toNat < 2 ^ 64 then some w.toNat else none) = none := by
    intro n h1 h2 h3
    cases hc : st.constOperand i (n + 1) with
    | none => rfl
    | some c =>
      have := hlog n h1 h2 h3 c hc
      show (if c.toNat < 2 ^ 64 then some c.toNat else none) = none
      rw [if_neg (by omega)]
  unfold constMemAccesses
  rw [on]
  simp only [Bool.false_eq_true, if_false]
  simp only [t1, t2, t3, t4, t5, t6, t7, t8, t9, t10, t11, t12, t13, t14, t15, t16, t17, t18, t19, t20, t21, t22,
    Bool.or_eq_true, decide_eq_true_eq]
  unfold memRanges at hs ⊢
  generalize d.opcode.toNat = o at *
  simp only at hs ⊢
  have one : ∀ a r, (∀ x ∈ [r], x.2 ≠ 0 → x.1 + x.2 < 2 ^ 63) → Desc a r → ∃ rs, DescAll [a] rs ∧
      ∀ m, growAll m [r] = growAll m rs := fun a r h1 h2 =>
    ⟨[r], .cons h2 (h1 r (by simp)) .nil, fun _ => rfl⟩
  have two : ∀ a r b q, (∀ x ∈ [r, q], x.2 ≠ 0 → x.1 + x.2 < 2 ^ 63) → Desc a r → Desc b q → ∃ rs, DescAll [a, b] rs ∧
      ∀ m, growAll m [r, q] = growAll m rs := fun a r b q h1 h2 h3 =>
    ⟨[r, q], .cons h2 (h1 r (by simp)) (.cons h3 (h1 q (by simp)) .nil), fun _ => rfl⟩
  by_cases c1 : o = 0x20
  · simp only [c1, if_true, true_or] at hs ⊢
    exact one _ _ hs ⟨fun _ => hop 0, hop 1⟩
  by_cases c2 : o = 0xf3
  · simp only [c2] at hs ⊢
    exact one _ _ hs ⟨fun _ => hop 0, hop 1⟩
  by_cases c3 : o = 0xfd
  · simp only [c3] at hs ⊢
    exact one _ _ hs ⟨fun _ => hop 0, hop 1⟩
  by_cases c4 : o = 0xa0
  · simp only [c4] at hs ⊢
    exact one _ _ hs ⟨fun _ => hop 0, hop 1⟩
  by_cases c5 : o = 0x51
  · simp only [c5] at hs ⊢
    exact one _ _ hs ⟨fun _ => hop 0, fun l h => Option.some.inj h⟩
  by_cases c6 : o = 0x52
  · simp only [c6] at hs ⊢
    exact one _ _ hs ⟨fun _ => hop 0, fun l h => Option.some.inj h⟩
  by_cases c7 : o = 0x53
  · simp only [c7] at hs ⊢
    exact one _ _ hs ⟨fun _ => hop 0, fun l h => Option.some.inj h⟩
  by_cases c8 : o = 0x37
  · simp only [c8] at hs ⊢
    exact one _ _ hs ⟨fun _ => hop 0, hop 2⟩
  by_cases c9 : o = 0x39
  · simp only [c9] at hs ⊢
    exact one _ _ hs ⟨fun _ => hop 0, hop 2⟩
  by_cases c10 : o = 0x3e
  · simp only [c10] at hs ⊢
    exact one _ _ hs ⟨fun _ => hop 0, hop 2⟩
  by_cases c11 : o = 0x3c
  · simp only [c11] at hs ⊢
    exact one _ _ hs ⟨fun _ => hop 1, hop 3⟩
  by_cases c12 : o = 0x5e
  · simp only [c12] at hs ⊢
    refine ⟨[(max (args[0]?.getD 0).toNat (args[1]?.getD 0).toNat, (args[2]?.getD 0).toNat)], .cons ⟨?_, hop 2⟩ ?_ .nil,
      fun m => ?_⟩
    · intro _ o ho
      obtain ⟨x, hx, ho⟩ := Option.bind_eq_some_iff.1 ho
      obtain ⟨y, hy, ho⟩ := Option.map_eq_some_iff.1 ho
      rw [hop 0 x hx, hop 1 y hy]; exact ho
    · intro hne
      have h1 := hs ((args[0]?.getD 0).toNat, (args[2]?.getD 0).toNat) (by simp) hne
      have h2 := hs ((args[1]?.getD 0).toNat, (args[2]?.getD 0).toNat) (by simp) hne
      simp only at h1 h2 ⊢
      omega
    · show grow (grow m _) _ = grow m _
      unfold grow
      simp only
      split
      · rfl
      · omega
  by_cases c13 : o = 0xf0
  · simp only [c13] at hs ⊢
    exact one _ _ hs ⟨fun _ => hop 1, hop 2⟩
  by_cases c14 : o = 0xf5
  · simp only [c14] at hs ⊢
    exact one _ _ hs ⟨fun _ => hop 1, hop 2⟩
  by_cases c15 : o = 0xf1
  · simp only [c15] at hs ⊢
    exact two _ _ _ _ hs ⟨fun _ => hop 3, hop 4⟩ ⟨fun _ => hop 5, hop 6⟩
  by_cases c16 : o = 0xf2
  · simp only [c16] at hs ⊢
    exact two _ _ _ _ hs ⟨fun _ => hop 3, hop 4⟩ ⟨fun _ => hop 5, hop 6⟩
  by_cases c17 : o = 0xf4
  · simp only [c17] at hs ⊢
    exact two _ _ _ _ hs ⟨fun _ => hop 2, hop 3⟩ ⟨fun _ => hop 4, hop 5⟩
  by_cases c18 : o = 0xfa
  · simp only [c18] at hs ⊢
    exact two _ _ _ _ hs ⟨fun _ => hop 2, hop 3⟩ ⟨fun _ => hop 4, hop 5⟩
  have logs : ∀ (a : Option Nat) (n : Nat) r, 1 ≤ n → n ≤ 4 → o = 0xa0 + n →
      (∀ x ∈ [r], x.2 ≠ 0 → x.1 + x.2 < 2 ^ 63) → ∃ rs, DescAll [(a,
        ((st.constOperand i (n + 1)).bind fun w => if w.toNat < 2 ^ 64 then some w.toNat else none))] rs ∧
      ∀ m, growAll m [r] = growAll m rs := by
    intro a n r h1 h2 h3 h4
    rw [hnone n h1 h2 h3]
    exact one _ _ h4 ⟨fun h => by simp at h, fun l h => by simp at h⟩
  by_cases c19 : o = 0xa1
  · simp only [c19] at hs ⊢
    exact logs _ 1 _ (by omega) (by omega) c19 hs
  by_cases c20 : o = 0xa2
  · simp only [c20] at hs ⊢
    exact logs _ 2 _ (by omega) (by omega) c20 hs
  by_cases c21 : o = 0xa3
  · simp only [c21] at hs ⊢
    exact logs _ 3 _ (by omega) (by omega) c21 hs
  by_cases c22 : o = 0xa4
  · simp only [c22] at hs ⊢
    exact logs _ 4 _ (by omega) (by omega) c22 hs
  refine ⟨[], ?_, fun m => ?_⟩
  · repeat rw [if_neg (by omega)]
    exact .nil
  · repeat rw [if_neg (by omega)]

/-! ## Running states -/

/-- The state is right about a memory of size `m`. -/
def Cov (s : MemState) (m : Nat) : Prop := (∃ k, s.known = some k ∧ k ≤ m) ∧ ∀ x, s.exact = some x → m = x

/-- The sizes after an access. -/
def stepState (s : MemState) (a : Option Nat × Option Nat) : MemState :=
  { known := some (max (s.known.getD 0) (minMem a)), exact := zipMax s.exact (exactMem a) }

theorem saveAccess_snd (r : MemSection × MemState) (a : Option Nat × Option Nat) :
    (saveAccess r a).2 = stepState r.2 a := rfl

theorem cov_step {s : MemState} {m : Nat} {a : Option Nat × Option Nat} {r : Nat × Nat} (h : Cov s m)
    (hd : Desc a r) (hs : Small r) : Cov (stepState s a) (grow m r) := by
  obtain ⟨⟨k, hk, hkm⟩, hx⟩ := h
  refine ⟨⟨_, rfl, ?_⟩, fun x hx' => ?_⟩
  · rw [hk, Option.getD_some]
    have := min_grow hd hs m
    have := grow_le m r
    omega
  · obtain ⟨y, hy, h2⟩ := Option.bind_eq_some_iff.1 hx'
    obtain ⟨e, he, h3⟩ := Option.map_eq_some_iff.1 h2
    rw [exact_grow hd hs he, hx y hy]
    exact h3

theorem cov_steps {s : MemState} {m : Nat} {as : List (Option Nat × Option Nat)} {rs : List (Nat × Nat)}
    (h : Cov s m) (hd : DescAll as rs) : Cov (as.foldl stepState s) (growAll m rs) := by
  induction hd generalizing s m with
  | nil => exact h
  | cons h1 h2 _ ih => exact ih (cov_step h h1 h2)

theorem saveAccess_fold (as : List (Option Nat × Option Nat)) (r : MemSection × MemState) :
    (as.foldl saveAccess r).2 = as.foldl stepState r.2 := by
  induction as generalizing r with
  | nil => rfl
  | cons a as ih => rw [List.foldl_cons, List.foldl_cons, ih, saveAccess_snd]

/-! ## Sections -/

/-- While all accesses of an instruction are fully known, the section's requirement is what the memory
grows to. -/
theorem save_exact {as : List (Option Nat × Option Nat)} {rs : List (Nat × Nat)} (hd : DescAll as rs)
    (hall : ∀ a ∈ as, a.1.isSome ∧ a.2.isSome) (m0 k0 : Nat) (sec : MemSection) (s : MemState) (m : Nat)
    (h1 : sec.known ≤ k0) (h2 : sec.required = 0 → s.known.getD 0 ≤ k0) (h3 : m = max m0 sec.required) :
    (as.foldl saveAccess (sec, s)).1.known ≤ k0 ∧
      growAll m rs = max m0 (as.foldl saveAccess (sec, s)).1.required := by
  induction hd generalizing sec s m with
  | nil => exact ⟨h1, h3⟩
  | @cons a r as rs ha hr _ ih =>
    rw [List.foldl_cons]
    obtain ⟨a1, a2⟩ := hall a (by simp)
    have he := min_exact a1 a2
    have hg := exact_grow (m := m) ha hr he
    have hsec : (saveAccess (sec, s) a).1 =
        if s.known.getD 0 ≠ 0 ∨ minMem a ≠ 0 then
          { known := if sec.known = 0 ∧ sec.required = 0 then s.known.getD 0 else sec.known
            required := max sec.required (minMem a)
            direct := if s.exact.any (· < minMem a) then max sec.direct (minMem a) else sec.direct }
        else sec := by
      unfold saveAccess
      simp only [he, Option.any_some, decide_eq_true_eq]
      split
      · split <;> rfl
      · rfl
    have hrest := ih (fun x hx => hall x (List.mem_cons_of_mem _ hx)) (saveAccess (sec, s) a).1
      (saveAccess (sec, s) a).2 (grow m r)
    rw [show growAll m (r :: rs) = growAll (grow m r) rs from rfl]
    refine hrest ?_ ?_ ?_
    · rw [hsec]
      split
      · simp only
        split
        · rename_i hc; exact h2 hc.2
        · exact h1
      · exact h1
    · rw [saveAccess_snd, hsec]
      simp only [stepState, Option.getD_some]
      split
      · simp only
        intro hz
        have := h2 (by omega)
        omega
      · rename_i hc
        intro hz
        have := h2 hz
        omega
    · rw [hg, hsec]
      split
      · simp only; omega
      · omega

theorem skip_sound {as : List (Option Nat × Option Nat)} {rs : List (Nat × Nat)} (hd : DescAll as rs)
    {s : MemState} {m : Nat} (hc : Cov s m)
    (hskip : canSkipMem (as.foldl saveAccess ({}, s)).1 as = true) : growAll m rs = m := by
  simp only [canSkipMem, Bool.and_eq_true, decide_eq_true_eq, List.all_eq_true] at hskip
  obtain ⟨⟨h1, _⟩, h2⟩ := hskip
  obtain ⟨⟨k, hk, hkm⟩, _⟩ := hc
  obtain ⟨g1, g2⟩ := save_exact hd h2 m k {} s m (Nat.zero_le _) (by intro; rw [hk]; exact Nat.le_refl _)
    (by simp)
  rw [g2]
  omega

theorem direct_sound {a : Option Nat × Option Nat} {r : Nat × Nat} (hd : Desc a r) (hs : Small r)
    {s : MemState} {m : Nat} (hc : Cov s m) (h : (saveAccess ({}, s) a).1.direct ≠ 0) :
    (saveAccess ({}, s) a).1.direct = grow m r ∧ m < grow m r := by
  unfold saveAccess at h ⊢
  simp only at h ⊢
  split at h
  · rename_i hcond
    rw [if_pos hcond]
    cases he : exactMem a with
    | none =>
      rw [he] at h
      simp at h
    | some e =>
      rw [he] at h
      simp only [true_and, if_true] at h ⊢
      split at h
      · rename_i hlt
        rw [if_pos hlt, exact_grow hd hs he]
        cases hx : s.exact with
        | none => rw [hx] at hlt; simp at hlt
        | some x =>
          rw [hx] at hlt
          have hlt' : x < e := by simpa using hlt
          have := hc.2 x hx
          omega
      · exact absurd rfl h
  · exact absurd rfl h

/-! ## Blocks -/

/-- The running state before the instruction after `l`. -/
def stateAfter (st : AIState) (l : List (Nat × InstData)) (s : MemState) : MemState :=
  (l.flatMap fun p => constMemAccesses st p.1 p.2).foldl stepState s

theorem saveInsts_at {st : AIState} {l : List (Nat × InstData)} {p : Nat × InstData} {r : List (Nat × InstData)}
    {s : MemState} : (saveInsts st (l ++ p :: r) s)[l.length]? =
      some (p.1, ((constMemAccesses st p.1 p.2).foldl saveAccess ({}, stateAfter st l s)).1) := by
  induction l generalizing s with
  | nil => rfl
  | cons q l ih =>
    simp only [List.cons_append, saveInsts, List.length_cons, List.getElem?_cons_succ]
    rw [ih, saveAccess_fold]
    unfold stateAfter
    simp only [List.flatMap_cons, List.foldl_append]

theorem cov_runs {st : AIState} {l : List (Nat × InstData)} {s : MemState} {m m' : Nat}
    (h : RunsAll st l m m') (hlog : ∀ p ∈ l, NoSmallTopic st p) (hc : Cov s m) :
    Cov (stateAfter st l s) m' := by
  induction h generalizing s with
  | nil m => exact hc
  | @cons p l m m' args hr _ ih =>
    obtain ⟨rs, d1, d2⟩ := accesses_desc hr (hlog p (by simp))
    have := cov_steps hc d1
    rw [← d2] at this
    have := ih (fun q hq => hlog q (List.mem_cons_of_mem _ hq)) this
    unfold stateAfter at this ⊢
    rw [List.flatMap_cons, List.foldl_append]
    exact this

/-- Folding the accesses one by one or summarising the block first: the same exit. -/
theorem steps_summary (as : List (Option Nat × Option Nat)) (k : Nat) (e : Option Nat) (s1 : Nat) (s2 : Option Nat) :
    as.foldl stepState { known := some (max k s1), exact := zipMax e s2 } =
      { known := some (max k (as.foldl (fun s a => (max s.1 (minMem a), zipMax s.2 (exactMem a))) (s1, s2)).1)
        exact := zipMax e (as.foldl (fun s a => (max s.1 (minMem a), zipMax s.2 (exactMem a))) (s1, s2)).2 } := by
  induction as generalizing s1 s2 with
  | nil => rfl
  | cons a as ih =>
    rw [List.foldl_cons, List.foldl_cons, ← ih]
    congr 1
    unfold stepState
    congr 1
    · simp only [Option.getD_some]
      congr 1
      omega
    · cases e <;> cases s2 <;> cases exactMem a <;> simp [zipMax]

theorem exit_eq {st : AIState} {b : MBlock} {s : MemState} {k : Nat} (h : s.known = some k) :
    b.exit st s = stateAfter st b.insts s := by
  have := steps_summary (b.accesses st) k s.exact 0 (some 0)
  have hs : s = { known := some (max k 0), exact := zipMax s.exact (some 0) } := by
    obtain ⟨k', e⟩ := s
    cases e <;> simp_all [zipMax]
  unfold stateAfter
  rw [show (b.insts.flatMap fun p => constMemAccesses st p.1 p.2) = b.accesses st from rfl]
  conv => rhs; rw [hs]
  rw [this]
  unfold MBlock.exit MBlock.summary
  rw [h]
  rfl

end Verif
