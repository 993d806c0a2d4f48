import Verif.Lemmas.FlowFinal
import Verif.Lemmas.DedupParse
import Verif.Lemmas.MemJump
/-!
# Parsed programs meet the hypotheses of the control-flow lemmas
-/

namespace Verif
open Spec

theorem parse_mem (g : UInt8 → BitVec 16) (spec : SpecId) (code : List UInt8) {x : Nat × InstData}
    (hx : x ∈ (parse g spec code).insts) :
    x ∈ (parseLoop (makeMap g spec) code 0 []).1 ∨ x = (code.length, InstData.mk' op.STOP) := by
  obtain ⟨pad, he, hpad⟩ := parse_insts g spec code
  rw [he, List.mem_append] at hx
  rcases hx with hx | hx
  · exact .inl hx
  · rcases hpad with ⟨rfl, _⟩ | ⟨rfl, _⟩
    · exact .inr (by simpa using hx)
    · simp at hx

theorem immValue_one {o : UInt8} (ho : minImmLen o = 1) :
    ∀ tail, UInt8.ofNat (immValue o tail).toNat = tail.headD 0
  | [] => by simp [immValue, ho]
  | b :: t => by
    have hb : b.toNat < 256 := b.toNat_lt
    simp only [immValue, ho, List.take_succ_cons, List.take_zero, List.length_cons, List.length_nil,
      Nat.zero_add, if_true, fromBeSlice, List.foldl_cons, List.foldl_nil, List.headD_cons]
    rw [BitVec.toNat_ofNat, Nat.zero_mul, Nat.zero_add, Nat.mod_eq_of_lt (by omega)]
    exact UInt8.ofNat_toNat

theorem computeStackIo_headD (o : UInt8) (imm : Option (List UInt8)) :
    computeStackIo o imm = computeStackIo o (some [(imm.getD []).headD 0]) := by
  match imm with
  | none => rfl
  | some [] => rfl
  | some (b :: t) => rfl

/-- The immediate byte of a parsed DUPN, SWAPN or EXCHANGE is the one its stack effect was computed from. -/
theorem parse_io (g : UInt8 → BitVec 16) (spec : SpecId) (code : List UInt8)
    (hlen : code.length ≤ 2 ^ 31) (i : Nat) (d : InstData)
    (hd : (parse g spec code).toProg.insts[i]? = some d) : IoOk (parse g spec code).toCode i d := by
  intro hoff
  obtain ⟨pc, hpc⟩ := toProg_get hd
  have hmem := List.mem_of_getElem? hpc
  by_cases hn : 0xe6 ≤ d.opcode.toNat ∧ d.opcode.toNat ≤ 0xe8
  · rcases parse_mem g spec code hmem with hm | hm
    · have hal : Aligned code code 0 := Or.inr (by simp)
      obtain ⟨_, _, _, it0, _, hpre, h⟩ := parseLoop_mem (makeMap g spec) code code 0 [] hal _ hm
      dsimp only at hpre h
      have hpool := parseLoop_pool (makeMap g spec) code 0 []
      have hE : isEip8024 d.opcode = true := (eip8024_table d.opcode).1.2 hn
      have hmin : minImmLen d.opcode = 1 := by
        have := minImmLen_table d.opcode
        rw [if_neg (by omega), if_pos hn] at this
        exact this
      have hfield : ∀ tail, instDataField d.opcode pc tail it0 =
          ((U256Imm.new (immValue d.opcode tail) it0).1.raw,
            (U256Imm.new (immValue d.opcode tail) it0).2) := by
        intro tail; simp [instDataField, hE]
      simp only [hfield] at hpre h
      have hget := U256Imm.new_get (immValue d.opcode (code.drop (pc + 1))) it0 (by
        have := hpre.length_le
        simp only [List.length_nil, U256Imm.TAG] at *; omega)
      have hget' := U256Imm.get_mono hpre hget
      have hdata : d.data = (U256Imm.new (immValue d.opcode (code.drop (pc + 1))) it0).1.raw := by
        rw [h]; rfl
      have himm : (parse g spec code).toCode.imm i = immValue d.opcode (code.drop (pc + 1)) := by
        show ((parse g spec code).pushValue i).getD 0 = _
        unfold Parsed.pushValue
        rw [hpc]
        dsimp only
        rw [hdata]
        show (U256Imm.get _ (parseLoop (makeMap g spec) code 0 []).2).getD 0 = _
        rw [hget']
        rfl
      have hact : opActive (makeMap g spec d.opcode) = true := by
        rw [h] at hoff
        unfold opActive
        simp only [mkInst] at hoff
        rw [Bool.or_comm, hoff]; rfl
      have hio : d.stackIo = computeStackIo d.opcode (iterNext (makeMap g spec) d.opcode (code.drop (pc + 1))).1 := by
        conv => lhs; rw [h]
        unfold mkInst
        dsimp only
        rw [if_pos hact]
      rw [hio, himm, immValue_one hmin, computeStackIo_headD]
      congr 3
      rw [iterNext_eq, hact, if_pos rfl, hmin]
      dsimp only
      cases hc : code.drop (pc + 1) with
      | nil => simp
      | cons b t => simp
    · rw [Prod.mk.injEq] at hm
      rw [hm.2] at hn
      exact absurd hn (by decide)
  · have hs := parse_stackIo g spec code hmem hn
    dsimp only at hs
    have hne : ∀ o : UInt8, (0xe6 ≤ o.toNat ∧ o.toNat ≤ 0xe8) → d.opcode ≠ o := fun o ho hc => hn (hc ▸ ho)
    have ht : ∀ imm, computeStackIo d.opcode imm = tableStackIo d.opcode := by
      intro imm
      unfold computeStackIo
      dsimp only
      rw [if_neg (hne _ (by decide)), if_neg (hne _ (by decide)), if_neg (hne _ (by decide))]
    rw [ht]
    rcases parse_mem g spec code hmem with hm | hm
    · obtain ⟨_, _, _, it0, _, _, h⟩ := parseLoop_mem _ code code 0 [] (Or.inr (by simp)) _ hm
      dsimp only at h
      have hact : opActive (makeMap g spec d.opcode) = true := by
        rw [h] at hoff
        unfold opActive
        simp only [mkInst] at hoff
        rw [Bool.or_comm, hoff]; rfl
      rw [hs, if_pos hact]
    · rw [Prod.mk.injEq] at hm
      rw [hm.2]
      decide

theorem parse_dest (g : UInt8 → BitVec 16) (spec : SpecId) (code : List UInt8) (w : Word) (t : Nat)
    (h : (parse g spec code).toCode.target w = some t) :
    ∃ d, (parse g spec code).toProg.insts[t]? = some d ∧ d.opcode = op.JUMPDEST := by
  unfold Parsed.toCode at h
  dsimp only at h
  split at h
  · rename_i hv
    obtain ⟨x, hx, hx1, hx2⟩ := (isValidJump_iff g spec code _).1 hv
    have hlt : x.1 < code.length := by
      rw [realInsts_eq] at hx
      exact loop_lt g spec code x hx
    have hpc := (C02_pc_maps g spec code t w.toNat (hx1 ▸ hlt)).1 h
    unfold Parsed.instPc at hpc
    obtain ⟨y, hy, hy1⟩ := Option.map_eq_some_iff.1 hpc
    have hxm : x ∈ (parse g spec code).insts := by
      unfold realInsts at hx
      exact (List.mem_filter.1 hx).1
    obtain ⟨j, hj⟩ := List.mem_iff_getElem?.1 hxm
    have hjt : j = t := pc_inj g spec code (pc := w.toNat) (d := x.2) (e := y.2)
      (by rw [hj, ← hx1]) (by rw [hy, ← hy1])
    subst hjt
    refine ⟨x.2, ?_, hx2⟩
    unfold Parsed.toProg
    rw [List.getElem?_map, hj]
    rfl
  · cases h

theorem parse_flags (g : UInt8 → BitVec 16) (spec : SpecId) (code : List UInt8) {x : Nat × InstData}
    (hx : x ∈ (parse g spec code).insts) :
    x.2.flags.deadCode = false ∧ x.2.flags.staticJump = false ∧
    x.2.flags.invalidJump = false ∧ x.2.flags.multiJump = false ∧ x.2.flags.constJumpCond = false := by
  rcases parse_mem g spec code hx with hm | rfl
  · obtain ⟨_, _, _, it0, _, _, h⟩ := parseLoop_mem _ code code 0 [] (Or.inr (by simp)) _ hm
    rw [h]
    exact ⟨rfl, rfl, rfl, rfl, rfl⟩
  · exact ⟨rfl, rfl, rfl, rfl, rfl⟩

/-- Every parsed program meets the hypotheses of the control-flow lemmas. -/
theorem flowWf_parse (g : UInt8 → BitVec 16) (spec : SpecId) (code : List UInt8)
    (hlen : code.length ≤ 2 ^ 31) :
    FlowWf (parse g spec code).toCode (parse g spec code).toProg.insts where
  ne := by
    obtain ⟨⟨x, hx, _⟩, _⟩ := C04_stop_padding g spec code
    unfold Parsed.toProg
    intro h
    rw [List.map_eq_nil_iff.1 h] at hx
    simp at hx
  io := parse_io g spec code hlen
  dest := parse_dest g spec code
  last := by
    intro i d hd hi
    obtain ⟨pc, hpc⟩ := toProg_get hd
    obtain ⟨⟨x, hx, he⟩, _⟩ := C04_stop_padding g spec code
    rw [List.getLast?_eq_getElem?] at hx
    unfold Parsed.toProg at hi
    rw [List.length_map] at hi
    rw [show (parse g spec code).insts.length - 1 = i by omega, hpc] at hx
    cases hx
    dsimp only at he
    have hmem := List.mem_of_getElem? hpc
    rcases he with he | he
    · simp only [List.mem_cons, List.not_mem_nil, or_false] at he
      unfold Halts
      rcases he with h | h | h | h | h | h
      · exact .inl (.inr (.inr (by rw [h]; decide)))
      · exact .inr h
      · exact .inl (.inr (.inr (by rw [h]; decide)))
      · exact .inl (.inr (.inr (by rw [h]; decide)))
      · exact .inl (.inr (.inr (by rw [h]; decide)))
      · exact .inl (.inr (.inr (by rw [h]; decide)))
    · left
      rcases parse_mem g spec code hmem with hm | hm
      · obtain ⟨_, _, _, it0, _, _, h⟩ := parseLoop_mem _ code code 0 [] (Or.inr (by simp)) _ hm
        dsimp only at h
        rw [← opActive_iff g spec] at he
        unfold opActive at he
        unfold Halts
        have h1 : d.flags.unknown = (makeMap g spec d.opcode).isUnknown := (congrArg (·.flags.unknown) h)
        have h2 : d.flags.disabled = (makeMap g spec d.opcode).isDisabled := (congrArg (·.flags.disabled) h)
        rw [h1, h2]
        revert he
        cases (makeMap g spec d.opcode).isUnknown <;> cases (makeMap g spec d.opcode).isDisabled <;> simp
      · rw [Prod.mk.injEq] at hm
        rw [hm.2]
        exact .inr (.inr (by decide))
  fresh := by
    intro i d hd
    obtain ⟨pc, hpc⟩ := toProg_get hd
    exact parse_flags g spec code (List.mem_of_getElem? hpc)

end Verif
