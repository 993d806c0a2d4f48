import Verif.Lemmas.DedupSame
import Verif.Lemmas.FlowEvolve
import Verif.Model.Program
import Verif.Props.Parse
/-!
# Analysed programs meet the hypotheses about instruction records
-/

namespace Verif
open Spec

theorem toProg_get {b : Parsed} {i : Nat} {d : InstData} (h : b.toProg.insts[i]? = some d) :
    ∃ pc, b.insts[i]? = some (pc, d) := by
  unfold Parsed.toProg at h
  rw [List.getElem?_map] at h
  obtain ⟨x, hx, rfl⟩ := Option.map_eq_some_iff.1 h
  exact ⟨x.1, hx⟩

/-- The stack effect of every opcode with a fixed effect depends on the opcode only. -/
theorem parse_stackIo (g : UInt8 → BitVec 16) (spec : SpecId) (code : List UInt8) {x : Nat × InstData}
    (hx : x ∈ (parse g spec code).insts) (hn : ¬ (0xe6 ≤ x.2.opcode.toNat ∧ x.2.opcode.toNat ≤ 0xe8)) :
    x.2.stackIo = if opActive (makeMap g spec x.2.opcode) then tableStackIo x.2.opcode else (0, 0) := by
  obtain ⟨pad, he, hpad⟩ := parse_insts g spec code
  rw [he, List.mem_append] at hx
  rcases hx with hx | hx
  · obtain ⟨_, _, _, it0, _, _, h⟩ := parseLoop_mem _ code code 0 [] (Or.inr (by simp)) x hx
    have hne : ∀ o : UInt8, (0xe6 ≤ o.toNat ∧ o.toNat ≤ 0xe8) → x.2.opcode ≠ o := fun o ho hc => hn (hc ▸ ho)
    have hs : ∀ imm, computeStackIo x.2.opcode imm = tableStackIo x.2.opcode := by
      intro imm
      unfold computeStackIo
      dsimp only
      rw [if_neg (hne _ (by decide)), if_neg (hne _ (by decide)), if_neg (hne _ (by decide))]
    rw [h]
    unfold mkInst
    dsimp only
    rw [hs]
  · rcases hpad with ⟨rfl, _⟩ | ⟨rfl, _⟩
    · simp only [List.mem_singleton] at hx
      subst hx
      have : (InstData.mk' op.STOP).stackIo = (0, 0) := by decide
      show (InstData.mk' op.STOP).stackIo = _
      rw [this]
      have h2 : tableStackIo (InstData.mk' op.STOP).opcode = (0, 0) := by decide
      show _ = if opActive (makeMap g spec (InstData.mk' op.STOP).opcode) = true then
        tableStackIo (InstData.mk' op.STOP).opcode else (0, 0)
      rw [h2]
      split <;> rfl
    · simp at hx

theorem decoded_parse (g : UInt8 → BitVec 16) (spec : SpecId) (code : List UInt8)
    (hlen : code.length ≤ 2 ^ 31) :
    Decoded (parse g spec code).toCode (parse g spec code).toProg.insts := by
  refine ⟨fun o => if opActive (makeMap g spec o) then tableStackIo o else (0, 0),
    fun n => (U256Imm.get ⟨n⟩ (parse g spec code).interner).getD 0, fun i d hd => ?_⟩
  obtain ⟨pc, hpc⟩ := toProg_get hd
  refine ⟨fun hn => ?_, fun _ => ?_, fun h0 => ?_⟩
  · exact parse_stackIo g spec code (List.mem_of_getElem? hpc) hn
  · show ((parse g spec code).pushValue i).getD 0 = _
    unfold Parsed.pushValue
    rw [hpc]
  · show ((parse g spec code).pushValue i).getD 0 = 0
    rw [C03_push_value g spec code hlen i pc d hpc (by omega), h0]
    rfl

theorem Evolves.decoded {code : Code} {l l' : List InstData} (h : Evolves l l') (hd : Decoded code l) :
    Decoded code l' := by
  obtain ⟨io, val, hv⟩ := hd
  refine ⟨io, val, fun i d' hd' => ?_⟩
  obtain ⟨d, h1, h2⟩ := h.back hd'
  obtain ⟨a, b, c⟩ := hv i d h1
  rw [h2.op, h2.io]
  refine ⟨a, fun hc => ?_, c⟩
  have hj : d.isJump = false := by
    cases hj : d.isJump with
    | false => rfl
    | true =>
      have := not_jump_of_imm (d := { d with flags := { d.flags with staticJump := true } })
        ((carriesImm_iff _).1 hc)
      unfold InstData.isStaticJump InstData.isJump at this
      unfold InstData.isJump at hj
      dsimp only at this
      rw [hj] at this
      simp at this
  rw [h2.data hj]
  exact b hc

/-- Every analysed program is decoded. -/
theorem decoded_analyze (g : UInt8 → BitVec 16) (spec : SpecId) (limit : Nat) (code : List UInt8)
    (hlen : code.length ≤ 2 ^ 31) :
    Decoded (parse g spec code).toCode (analyzeBytes g spec limit code).1.insts :=
  (evolves_analyze _ _ _).decoded (decoded_parse g spec code hlen)

end Verif
