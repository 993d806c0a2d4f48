import Verif.Lemmas.WholeGasEnd
import Verif.Lemmas.WholeMemCode
import Verif.Lemmas.WholeDedupSim
/-!
# What the head of a section charges, if every live instruction is entered
-/

namespace Verif
open Spec

/-- Behind a dead instruction no section goes on. -/
theorem Anch.rest_dead {p : Prog} (ha : Anch p) (spec : SpecId) : ∀ (n j : Nat), p.insts.length - j = n → 0 < j →
    ¬ LiveAt p.insts (j - 1) → specRest spec p.hasDyn (p.insts.drop j) j = []
  | 0, j, hn, _, _ => by
    rw [List.drop_eq_nil_of_le (by omega)]; rfl
  | n + 1, j, hn, h0, hd => by
    have hlt : j < p.insts.length := by omega
    have hj : p.insts[j]? = some p.insts[j] := List.getElem?_eq_getElem hlt
    cases hl : p.insts[j].flags.deadCode with
    | true =>
      rw [← List.getElem_cons_drop hlt, specRest_cons, hl]
      simp only [if_true]
      refine ha.rest_dead spec n (j + 1) (by omega) (by omega) ?_
      rw [Nat.add_sub_cancel]
      rintro ⟨d, h1, h2⟩
      rw [hj] at h1; cases h1
      rw [hl] at h2; cases h2
    | false =>
      rcases ha j h0 ⟨_, hj, hl⟩ with ⟨d, h1, h2⟩ | ⟨d, h1, h2, _⟩
      · rw [hj] at h1; cases h1
        exact specRest_entry hj hl h2
      · exact absurd ⟨d, h1, h2⟩ hd

section anch
variable {p : Prog} (ha : Anch p) {b : Nat × Nat} (hb : b ∈ p.blocks) (spec : SpecId)
include ha hb

theorem Anch.secHead : SecHead p.insts spec p.hasDyn b.1 := by
  have hlead := ha.start hb
  by_cases h0 : b.1 = 0
  · rw [h0]; exact .inl rfl
  · unfold Prog.isLeader at hlead
    simp only [Bool.or_eq_true, Bool.and_eq_true, beq_iff_eq, decide_eq_true_eq] at hlead
    rcases hlead with (h | h) | ⟨_, h⟩
    · exact absurd h h0
    · right
      cases hd : p.insts[b.1]? with
      | none => rw [hd] at h; simp at h
      | some d => rw [hd] at h; exact ⟨d, rfl, h⟩
    · left
      cases hd : p.insts[b.1 - 1]? with
      | none => rw [hd] at h; simp at h
      | some d =>
        rw [hd] at h
        simp only [Option.any_some, Bool.and_eq_true, Bool.not_eq_true'] at h
        have := freshAt_succ (spec := spec) hd h.1
        rw [show b.1 - 1 + 1 = b.1 by omega] at this
        rw [this]
        exact branching_ends h.2

/-- A block is followed by a new section. -/
theorem Anch.rest : (∃ d, p.insts[b.2 - 1]? = some d ∧ d.endsSection spec = true) ∨
    specRest spec p.hasDyn (p.insts.drop b.2) b.2 = [] := by
  have hrange := p.blocks_ok.range b hb
  by_cases hlt : b.2 < p.insts.length
  · have hj : p.insts[b.2]? = some p.insts[b.2] := List.getElem?_eq_getElem hlt
    cases hl : p.insts[b.2].flags.deadCode with
    | true =>
      right
      rw [← List.getElem_cons_drop hlt, specRest_cons, hl]
      simp only [if_true]
      refine ha.rest_dead spec _ (b.2 + 1) rfl (by omega) ?_
      rw [Nat.add_sub_cancel]
      rintro ⟨d, h1, h2⟩
      rw [hj] at h1; cases h1
      rw [hl] at h2; cases h2
    | false =>
      have hlead := ((ha.mem_blocks b.1 b.2).1 hb).2.2.2.2 ⟨_, hj, hl⟩
      unfold Prog.isLeader at hlead
      simp only [Bool.or_eq_true, Bool.and_eq_true, beq_iff_eq, decide_eq_true_eq] at hlead
      rcases hlead with (h | h) | ⟨_, h⟩
      · omega
      · right
        rw [hj] at h
        exact specRest_entry hj hl h
      · left
        cases hd : p.insts[b.2 - 1]? with
        | none => rw [hd] at h; simp at h
        | some d =>
          rw [hd] at h
          simp only [Option.any_some, Bool.and_eq_true, Bool.not_eq_true'] at h
          exact ⟨d, rfl, branching_ends h.2⟩
  · right
    rw [List.drop_eq_nil_of_le (by omega)]; rfl

end anch

/-- The cost of an instruction that its section pays. -/
def Compiled.headCost (C : Compiled) (expCost : Word → Nat) (i : Nat) : Nat :=
  ((C.prog.insts[i]?).map (·.baseGas)).getD 0 + (C.extra expCost i).getD 0

/-- What the head of a section is to charge. -/
def Compiled.headSum (C : Compiled) (expCost : Word → Nat) (s : List (Nat × InstData)) : Nat :=
  match s with
  | [] => 0
  | (_, d) :: _ => if d.flags.disabled || d.flags.unknown then 0 else (s.map fun x => C.headCost expCost x.1).sum

section full
variable {C : Compiled} {expCost : Word → Nat} (ha : Anch C.prog) (hfit : SumsFit C expCost) {b : Nat × Nat}
  (hb : b ∈ C.prog.blocks)
include ha hfit hb

theorem Anch.sec_full {A B : List (List (Nat × InstData))} {s : List (Nat × InstData)}
    (hs : splitSections C.spec (C.prog.blockInsts b) = A ++ s :: B) : C.sectionGas expCost s = C.headSum expCost s := by
  have hrange := C.prog.blocks_ok.range b hb
  have hlenb : (C.prog.blockInsts b).length = b.2 - b.1 := slice_len' (by omega)
  obtain ⟨c1, c2, c3, c4⟩ := split_cut hs
  have hfl := split_flatten C.spec (C.prog.blockInsts b)
  rw [hs] at hfl
  simp only [List.flatten_append, List.flatten_cons] at hfl
  have hcon : Consec C.prog.insts b.1 (C.prog.blockInsts b) := consec_slice (by omega)
  rw [← hfl, Consec.append, Consec.append] at hcon
  obtain ⟨hcA, hcS, hcB⟩ := hcon
  have hmemb : ∀ x ∈ C.prog.blockInsts b, C.prog.insts[x.1]? = some x.2 ∧ b.1 ≤ x.1 ∧ x.1 < b.2 ∧
      x.2.flags.deadCode = false := by
    intro x hx
    obtain ⟨h1, h2, h3⟩ := mem_slice hx
    obtain ⟨d, h4, h5⟩ := ha.block_live hb h2 (by omega)
    rw [h1] at h4; cases h4
    exact ⟨h1, h2, by omega, h5⟩
  have hmem : ∀ x ∈ s, C.prog.insts[x.1]? = some x.2 ∧ b.1 ≤ x.1 ∧ x.1 < b.2 ∧ x.2.flags.deadCode = false :=
    fun x hx => hmemb x (by rw [← hfl]; simp [hx])
  have hfresh : SecHead C.prog.insts C.spec C.prog.hasDyn (b.1 + A.flatten.length) := by
    rcases c1 with h | ⟨y, h1, h2⟩
    · rw [h]; exact ha.secHead hb C.spec
    · left
      obtain ⟨ys, hys⟩ := List.getLast?_eq_some_iff.1 h1
      have hl' := (hmemb y (by rw [← hfl, hys]; simp)).2.2.2
      rw [hys, Consec.append] at hcA
      obtain ⟨_, hy1, hy2, _⟩ := hcA
      rw [hys, List.length_append, List.length_singleton, show b.1 + (ys.length + 1) = b.1 + ys.length + 1 by omega,
        freshAt_succ hy2 hl', h2]
  obtain ⟨x, s', rfl⟩ : ∃ x s', s = x :: s' := by
    cases s with
    | nil => exact absurd rfl c3
    | cons x s' => exact ⟨x, s', rfl⟩
  have hentry : ∀ y ∈ s', y.2.isReachableJumpdest C.prog.hasDyn = false := by
    intro y hy
    obtain ⟨j, hj⟩ := List.mem_iff_getElem?.1 hy
    have hget : ∀ (l : List (Nat × InstData)) (i j : Nat) y, Consec C.prog.insts i l → l[j]? = some y → y.1 = i + j := by
      intro l
      induction l with
      | nil => intro i j y _ h; simp at h
      | cons z l ih =>
        intro i j y hc h
        cases j with
        | zero => simp only [List.getElem?_cons_zero, Option.some.injEq] at h; subst h; exact hc.1
        | succ j =>
          have := ih (i + 1) j y hc.2.2 (by simpa using h)
          omega
    have hy1 := hget _ _ _ _ hcS.2.2 hj
    obtain ⟨h1, h2, h3, _⟩ := hmem y (by simp [hy])
    exact inside_not_entry hb (by omega) h3 h1
  have ht := table_consec (spec := C.spec) (dyn := C.prog.hasDyn) hcS hfresh (fun y hy => (hmem y hy).2.2.2) hentry c2
  have hrest : (if (x :: s').getLast?.any (fun x => x.2.endsSection C.spec) then []
      else specRest C.spec C.prog.hasDyn (C.prog.insts.drop (b.1 + A.flatten.length + (x :: s').length))
        (b.1 + A.flatten.length + (x :: s').length)) = ([] : List (InstData × Nat)) := by
    rcases c4 with h1 | ⟨y, h1, h2⟩
    · have hl : A.flatten.length + (x :: s').length = b.2 - b.1 := by
        rw [← hlenb, ← hfl, h1]; simp
      split
      · rfl
      · rename_i hne
        rw [show b.1 + A.flatten.length + (x :: s').length = b.2 by omega]
        rcases ha.rest hb C.spec with ⟨d, h2, h3⟩ | h2
        · exfalso
          apply hne
          obtain ⟨ys, y, hys⟩ : ∃ ys y, x :: s' = ys ++ [y] := ⟨_, _, (List.dropLast_append_getLast (List.cons_ne_nil x s')).symm⟩
          rw [hys, Consec.append] at hcS
          obtain ⟨_, hy1, hy2, _⟩ := hcS
          rw [hys] at hl ⊢
          rw [List.length_append, List.length_singleton] at hl
          rw [show b.1 + A.flatten.length + ys.length = b.2 - 1 by omega, h2] at hy2
          cases hy2
          simp [h3]
        · exact h2
    · rw [h1, Option.any_some, h2]; rfl
  rw [hrest, List.append_nil] at ht
  have hx1 : x.1 = b.1 + A.flatten.length := hcS.1
  have hsum : ((x :: s').map fun y => C.headCost expCost y.1) =
      (((x :: s').map fun y => (y.2, y.1)).map fun q => q.1.baseGas + (C.extra expCost q.2).getD 0) := by
    rw [List.map_map]
    refine List.map_congr_left fun y hy => ?_
    show C.headCost expCost y.1 = y.2.baseGas + (C.extra expCost y.1).getD 0
    unfold Compiled.headCost
    rw [(hmem y hy).1]; rfl
  obtain ⟨xi, xd⟩ := x
  dsimp only at hx1
  unfold Compiled.sectionGas Compiled.headSum
  dsimp only
  split
  · rfl
  · have hf := hfit _ _ ht
    rw [C21_section_sum, hx1, ht]
    dsimp only
    rw [Nat.min_eq_left (by omega), ← hsum, hx1]

/-- The same for the sections of a compiled block. -/
theorem Anch.secs_full {l' : List (Nat × InstData)} (hm : Marked (C.prog.blockInsts b) l')
    {s : List (Nat × InstData)} (hs : s ∈ splitSections C.spec l') : C.sectionGas expCost s = C.headSum expCost s := by
  obtain ⟨A, B, hs⟩ := List.append_of_mem hs
  obtain ⟨A0, s0, B0, h1, h2, h3, h4, h5⟩ := split_counter hm hs
  have hfst : s.map Prod.fst = s0.map Prod.fst := by
    apply List.ext_getElem?
    intro j
    rw [List.getElem?_map, List.getElem?_map]
    cases hj : s[j]? with
    | none =>
      rw [List.getElem?_eq_none_iff] at hj
      rw [List.getElem?_eq_none (by omega)]
    | some p' =>
      obtain ⟨p, m, q1, rfl⟩ := h5 j p' hj
      rw [q1]; rfl
  have hsum : (s.map fun x => C.headCost expCost x.1) = s0.map fun x => C.headCost expCost x.1 := by
    have := congrArg (List.map (C.headCost expCost)) hfst
    rw [List.map_map, List.map_map] at this
    exact this
  have h0 := ha.sec_full hfit hb h1
  cases s with
  | nil =>
    have : s0 = [] := by cases s0 with | nil => rfl | cons _ _ => simp at h3
    rw [this] at h0; exact h0
  | cons p' s' =>
    obtain ⟨p, m, q1, rfl⟩ := h5 0 p' rfl
    cases s0 with
    | nil => simp at q1
    | cons p0 s0' =>
      simp only [List.getElem?_cons_zero, Option.some.injEq] at q1
      subst q1
      obtain ⟨i, d⟩ := p0
      unfold Compiled.sectionGas Compiled.headSum at h0 ⊢
      dsimp only at h0 ⊢
      rw [(mark_flags (m := m) (d := d)).1, (mark_flags (m := m) (d := d)).2.1, hsum]
      exact h0

end full

end Verif
