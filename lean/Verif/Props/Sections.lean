import Verif.Lemmas.Sections
/-!
# C20, C21: sections

`Spec.sections dead entry ends true insts.zipIdx` is the specification's partition of the
instructions: entry `j` is `some S` iff live instruction `j` starts the section made of the
instructions `S`.
-/

namespace Verif

/-- The specification's section table for an instruction list. -/
abbrev Spec.table (insts : List InstData) (spec : SpecId) (dyn : Bool) :
    List (Option (List (InstData × Nat))) :=
  Spec.sections (fun p => p.1.flags.deadCode) (fun p => p.1.isReachableJumpdest dyn)
    (fun p => p.1.endsSection spec) true insts.zipIdx

/-- C20: instruction `j` carries a stack check iff it starts a section, and that check fails at
entry height `h` iff checking each instruction of the section separately fails somewhere. -/
theorem C20_check_exact (insts : List InstData) (spec : SpecId) (dyn : Bool)
    (extra : Nat → Option Nat) (j : Nat) :
    match (Spec.table insts spec dyn)[j]?.join with
    | none => (constructSections insts spec dyn extra).stkOut j = none
    | some S => ∃ sec, (constructSections insts spec dyn extra).stkOut j = some sec ∧
        ∀ h, h ≤ 1024 → ((checkStackBounds sec h).isSome = true ↔
          Spec.stackFails h (S.map fun p => p.1.stackIo)) := by
  have h := (constructSections_spec insts spec dyn extra j).2
  simp only [stkVal, specSecs] at h
  cases hS : (Spec.table insts spec dyn)[j]?.join with
  | none => rw [hS] at h; exact h
  | some S =>
    rw [hS] at h
    refine ⟨_, h, fun hh hle => ?_⟩
    have hm := StackAcc.mono (S.map fun p => p.1.stackIo) {}
    have hi := StackAcc.fold_iff (S.map fun p => p.1.stackIo) {} hh hh (by simp)
    rw [List.foldl_map] at hm hi
    show (checkStackBounds (S.foldl (fun a p => a.process p.1.stackIo.1 p.1.stackIo.2)
      ({} : StackAcc)).section hh).isSome = true ↔ _
    rw [check_isSome _ _ hm.1 hm.2 hle, hi]
    simp only
    constructor
    · rintro (h | h | h)
      · omega
      · omega
      · exact h
    · exact fun h => .inr (.inr h)

/-- C20: a section that the interpreter completes without stack error is never rejected. -/
theorem C20_no_spurious (S : List (Nat × Nat)) (h : Nat) (hle : h ≤ 1024)
    (hok : ¬ Spec.stackFails h S) :
    checkStackBounds (S.foldl (fun a p => a.process p.1 p.2) ({} : StackAcc)).section h = none := by
  have hm := StackAcc.mono S {}
  have hi := StackAcc.fold_iff S {} h h (by simp)
  rw [← Option.not_isSome_iff_eq_none, check_isSome _ _ hm.1 hm.2 hle, hi]
  simp only
  rintro (h | h | h)
  · omega
  · omega
  · exact hok h

/-- C20, C21: the sections are a partition of the live instructions, in order. -/
theorem C20_partition (insts : List InstData) (spec : SpecId) (dyn : Bool) :
    ((Spec.table insts spec dyn).filterMap id).flatten =
      insts.zipIdx.filter fun p => !p.1.flags.deadCode :=
  (sections_flatten _ _ _ insts.zipIdx).1

/-- C20, C21: a section is straight-line code whose instructions cannot see that gas was charged
early: an instruction that reads the remaining gas, transfers control, or is disabled or unknown can
only be the last one of its section, and a reachable jump target only the first one. -/
theorem C21_observers_last (insts : List InstData) (spec : SpecId) (dyn : Bool)
    (S : List (InstData × Nat)) (hS : some S ∈ Spec.table insts spec dyn) :
    (∀ p ∈ S.dropLast, ¬ Spec.readsGas spec p.1.opcode ∧ ¬ Spec.transfersControl p.1.opcode ∧
      p.1.flags.disabled = false ∧ p.1.flags.unknown = false) ∧
    (∀ p ∈ S.tail, ¬ (p.1.opcode = 0x5b ∧ (dyn = true ∨ p.1.reachable = true))) := by
  obtain ⟨h1, h2⟩ := sections_props _ _ _ _ _ _ hS
  refine ⟨fun p hp => ?_, fun p hp => ?_⟩
  · have h := h2 p hp
    simp only [InstData.endsSection, InstData.maySuspend, InstData.isBranching,
      InstData.requiresGasleft, InstData.isJump, InstData.isDiverging, Bool.or_eq_false_iff,
      List.contains_eq_mem, decide_eq_false_iff_not, List.mem_cons, List.not_mem_nil, or_false,
      beq_eq_false_iff_ne, Bool.and_eq_false_iff, ne_eq] at h
    simp only [Spec.readsGas, Spec.transfersControl, List.mem_cons, List.not_mem_nil, or_false]
    obtain ⟨⟨ha, hb, hc⟩, hd, he⟩ := h
    refine ⟨?_, ?_, hc.1.1.2, hc.1.2⟩
    · rintro (h | h)
      · rcases h with h | h | h | h | h | h | h <;> simp_all
      · rcases he with he | he
        · exact he h.1
        · exact he h.2
    · rintro (h | h | h | h | h | h | h) <;> simp_all
  · have h := h1 p hp
    simp only [InstData.isReachableJumpdest, InstData.isJumpdest] at h
    rintro ⟨h3, h4⟩
    rcases h4 with h4 | h4 <;> simp [h3, h4] at h

/-- C21: the gas at a section head is the sum over its section, capped at `u32::MAX`; elsewhere
nothing is charged. -/
theorem C21_section_sum (insts : List InstData) (spec : SpecId) (dyn : Bool)
    (extra : Nat → Option Nat) (j : Nat) :
    (constructSections insts spec dyn extra).gasOut j =
      match (Spec.table insts spec dyn)[j]?.join with
      | none => 0
      | some S => min (S.map fun p => p.1.baseGas + (extra p.2).getD 0).sum (2 ^ 32 - 1) := by
  have h := (constructSections_spec insts spec dyn extra j).1
  simp only [gasVal, specSecs] at h
  rw [h]
  cases (Spec.table insts spec dyn)[j]?.join with
  | none => rfl
  | some S => 
    simp only [gasFold, gasSection, show instGas extra = fun p => p.1.baseGas + (extra p.2).getD 0 from rfl]
    split <;> omega

/-- C21, partial: for a section whose static gas is below 2^32, charging it at the head and then
only the dynamic costs `dy` of its instructions ends like charging everything one instruction at a
time: out of gas in the same cases, and the same remaining gas otherwise. Missing: sections whose
total exceeds `u32::MAX`, where the code undercharges (`C21_charge_exact_fails`). -/
theorem C21_charge_exact_partial (insts : List InstData) (spec : SpecId) (dyn : Bool)
    (extra : Nat → Option Nat) (j : Nat) (S : List (InstData × Nat))
    (hS : (Spec.table insts spec dyn)[j]? = some (some S))
    (hlt : (S.map fun p => p.1.baseGas + (extra p.2).getD 0).sum < 2 ^ 32)
    (dy : InstData × Nat → Nat) (g : Nat) :
    ((chargeGas g ((constructSections insts spec dyn extra).gasOut j)).bind fun g' =>
      Spec.chargeEach g' (S.map fun p => (0, dy p))) =
    Spec.chargeEach g (S.map fun p => (p.1.baseGas + (extra p.2).getD 0, dy p)) := by
  rw [C21_section_sum, hS]
  simp only [Option.join_some, chargeEach_sum, List.map_map, Function.comp_def, chargeGas]
  rw [Nat.min_eq_left (by omega)]
  have : (S.map fun p => p.1.baseGas + (extra p.2).getD 0 + dy p).sum =
      (S.map fun p => p.1.baseGas + (extra p.2).getD 0).sum + (S.map fun p => 0 + dy p).sum := by
    clear hS hlt
    induction S with
    | nil => rfl
    | cons a l ih => simp only [List.map_cons, List.sum_cons, ih]; omega
  rw [this]
  by_cases h : g < (S.map fun p => p.1.baseGas + (extra p.2).getD 0).sum
  · rw [if_pos h, if_pos (by omega)]; rfl
  · rw [if_neg h]
    simp only [Option.bind_some]
    by_cases h2 : g < (S.map fun p => p.1.baseGas + (extra p.2).getD 0).sum +
        (S.map fun p => 0 + dy p).sum
    · rw [if_pos h2, if_pos (by omega)]
    · rw [if_neg h2, if_neg (by omega), Nat.sub_sub]

/-- An EXP whose exponent is the constant 2, under a gas schedule charging 2^32 per exponent byte. -/
def hugeExp : InstData := { (InstData.mk' op.EXP) with baseGas := 10, stackIo := (2, 1) }

/-- C21 is false in full: with a custom gas schedule the section total can exceed `u32::MAX`; the
section then charges less than its instructions cost. -/
theorem C21_charge_exact_fails :
    ∃ (insts : List InstData) (extra : Nat → Option Nat) (S : List (InstData × Nat)) (g : Nat),
      (Spec.table insts 14 false)[0]? = some (some S) ∧
      (chargeGas g ((constructSections insts 14 false extra).gasOut 0)).isSome = true ∧
      Spec.chargeEach g (S.map fun p => (p.1.baseGas + (extra p.2).getD 0, 0)) = none := by
  refine ⟨[hugeExp], fun _ => some (2 ^ 32), [(hugeExp, 0)], 2 ^ 32, ?_, ?_, ?_⟩ <;> decide +kernel

/-- C21: the dynamic gas of EXP is charged exactly once: in the section if it was folded there,
else at run time. (`constOut` is only known when the exponent is: `C08_unknown_operand`.) -/
theorem C21_exp_once (constBase constExp constOut : Option Word) (expCost : Word → Nat) (a b : IRVal)
    (h : constOut.isSome = true → constExp.isSome = true) :
    (expExtra op.EXP constExp constOut expCost).isSome =
      !expRuntimeCharge constBase constExp constOut a b := by
  cases constOut with
  | some w =>
    obtain ⟨e, rfl⟩ := Option.isSome_iff_exists.1 (h rfl)
    simp [expExtra, expRuntimeCharge]
  | none =>
    have hp : tryPeephole op.EXP [constBase, constExp] [a, b] = peepholeExp constBase constExp a b := rfl
    have hx : ∀ c : Option Word, expExtra op.EXP c none expCost =
        match c with
        | some e => if decide (e.toNat ≤ 2) then some (expCost e) else none
        | none => none := fun c => by cases c <;> rfl
    simp only [expRuntimeCharge, hp, hx]
    cases constExp with
    | none =>
      simp only [peepholeExp, Option.isSome_none, Bool.false_eq_true, if_false]
      cases constBase with
      | none => rfl
      | some base =>
        simp only
        repeat' (split <;> try rfl)
        all_goals
          rename_i h; revert h
          repeat' split
          all_goals (intro h; cases h; try rfl)
    | some e =>
      simp only [peepholeExp, foldConst, Option.isSome_none, Bool.false_eq_true, if_false]
      by_cases h0 : e = 0
      · subst h0; rfl
      by_cases h1 : e = 1
      · subst h1; rfl
      by_cases h2 : e = 2
      · subst h2; rfl
      have : ¬ e.toNat ≤ 2 := by
        intro hle
        have e0 : e.toNat ≠ 0 := fun h => h0 (BitVec.eq_of_toNat_eq h)
        have e1 : e.toNat ≠ 1 := fun h => h1 (BitVec.eq_of_toNat_eq h)
        have e2 : e.toNat ≠ 2 := fun h => h2 (BitVec.eq_of_toNat_eq h)
        omega
      simp only [h0, h1, h2, this, if_false, decide_false, Bool.false_eq_true, Option.isSome_none,
        Bool.not_true]

/-- C21: what is folded for EXP is exactly the dynamic cost of the known exponent. -/
theorem C21_exp_amount (opcode : UInt8) (constExp constOut : Option Word) (expCost : Word → Nat)
    (n : Nat) (h : expExtra opcode constExp constOut expCost = some n) :
    opcode = op.EXP ∧ ∃ e, constExp = some e ∧ n = expCost e := by
  unfold expExtra at h
  grind

/-! ## Concrete cases -/

/-- PUSH1, dead POP, ADD, reachable JUMPDEST, POP, STOP. -/
def secExample : List InstData :=
  [{ (InstData.mk' op.PUSH1) with baseGas := 3, stackIo := (0, 1) },
   { (InstData.mk' op.POP) with baseGas := 2, stackIo := (1, 0), flags := { deadCode := true } },
   { (InstData.mk' op.ADD) with baseGas := 3, stackIo := (2, 1) },
   { (InstData.mk' op.JUMPDEST) with baseGas := 1, stackIo := (0, 0), reachable := true },
   { (InstData.mk' op.POP) with baseGas := 2, stackIo := (1, 0) },
   { (InstData.mk' op.STOP) with baseGas := 0, stackIo := (0, 0) }]

example : (Spec.table secExample 14 false).map (Option.map (List.map Prod.snd)) =
    [some [0, 2], none, none, some [3, 4, 5], none, none] := by decide +kernel
example : (List.range 6).map (constructSections secExample 14 false fun _ => none).gasOut =
    [6, 0, 0, 3, 0, 0] := by decide +kernel
example : (constructSections secExample 14 false fun _ => none).stkOut 0 =
    some { inputs := 1, maxGrowth := 1 } := by decide +kernel
example : checkStackBounds { inputs := 1, maxGrowth := 1 } 0 = some .underflow := by decide
example : checkStackBounds { inputs := 1, maxGrowth := 1 } 1024 = some .overflow := by decide
example : checkStackBounds { inputs := 1, maxGrowth := 1 } 1023 = none := by decide
example : ¬ Spec.stackFails 1 [(0, 1), (2, 1)] := by decide
example : Spec.chargeEach 6 [(3, 0), (3, 0)] = some 0 := by decide
example : (expExtra op.EXP (some 2) none fun _ => 50) = some 50 := by decide +kernel
example : expRuntimeCharge none (some 2) none none none = false := by decide +kernel
example : expRuntimeCharge (some 2) none none none none = true := by decide +kernel

end Verif
