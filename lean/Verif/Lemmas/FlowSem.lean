import Verif.Spec.Flow
import Verif.Lemmas.FlowEvolve
import Verif.Lemmas.PushKnown
import Verif.Lemmas.FlowCfg
/-!
# Executions: heights, progress of the abstract interpreter
-/

namespace Verif
open Spec

/-- The stack effect of an enabled instruction is that of its opcode and immediate. -/
def IoOk (code : Code) (i : Nat) (d : InstData) : Prop :=
  (d.flags.disabled || d.flags.unknown) = false →
    d.stackIo = computeStackIo d.opcode (some [UInt8.ofNat (code.imm i).toNat])

/-- What parsing guarantees. -/
structure FlowWf (code : Code) (insts : List InstData) : Prop where
  ne : insts ≠ []
  io : ∀ (i : Nat) d, insts[i]? = some d → IoOk code i d
  dest : ∀ w t, code.target w = some t → ∃ d, insts[t]? = some d ∧ d.opcode = op.JUMPDEST
  last : ∀ (i : Nat) d, insts[i]? = some d → i + 1 = insts.length → Halts d ∨ d.opcode = op.JUMP
  fresh : ∀ (i : Nat) d, insts[i]? = some d → d.flags.deadCode = false ∧ d.flags.staticJump = false ∧
    d.flags.invalidJump = false ∧ d.flags.multiJump = false ∧ d.flags.constJumpCond = false

theorem not_halts_off {d : InstData} (h : ¬ Halts d) : (d.flags.disabled || d.flags.unknown) = false := by
  unfold Halts at h
  cases h1 : d.flags.disabled <;> cases h2 : d.flags.unknown <;> simp_all

theorem stdIo_of {code : Code} {i : Nat} {d : InstData}
    (hio : d.stackIo = computeStackIo d.opcode (some [UInt8.ofNat (code.imm i).toNat])) : StdIo d := by
  intro hn
  rw [hio]
  unfold computeStackIo
  simp only [List.mem_cons, List.not_mem_nil, or_false, not_or] at hn
  dsimp only
  rw [if_neg (fun h => hn.1 (by rw [h]; rfl)), if_neg (fun h => hn.2.1 (by rw [h]; rfl)),
    if_neg (fun h => hn.2.2 (by rw [h]; rfl))]

/-- A completed instruction had its operands, and changed the height by its stack effect. -/
theorem step_len {code : Code} {i : Nat} {d : InstData} {c c' : List Word}
    (hio : d.stackIo = computeStackIo d.opcode (some [UInt8.ofNat (code.imm i).toNat]))
    (h : StackStep code.codeLen d.data d.opcode.toNat (code.imm i) d.stackIo.1 d.stackIo.2 c c') :
    d.stackIo.1 ≤ c.length ∧ c'.length = c.length - d.stackIo.1 + d.stackIo.2 ∧ Decodable code (i, d) := by
  have hbyte : (UInt8.ofNat (code.imm i).toNat).toNat = (code.imm i).toNat % 256 := by simp
  have hstd := stdIo_of hio
  have nodec : d.opcode.toNat ∉ [0xe6, 0xe7, 0xe8] → Decodable code (i, d) := by
    intro hn
    simp only [List.mem_cons, List.not_mem_nil, or_false, not_or] at hn
    refine ⟨fun h => ?_, fun h => ?_⟩
    · rcases h with h | h
      · exact absurd (show d.opcode.toNat = 0xe6 by rw [show d.opcode = op.DUPN from h]; rfl) hn.1
      · exact absurd (show d.opcode.toNat = 0xe7 by rw [show d.opcode = op.SWAPN from h]; rfl) hn.2.1
    · exact absurd (show d.opcode.toNat = 0xe8 by rw [show d.opcode = op.EXCHANGE from h]; rfl) hn.2.2
  generalize hinp : d.stackIo.1 = inp at h
  generalize hout : d.stackIo.2 = out at h
  cases h with
  | push _ h1 h2 =>
    have hn : d.opcode.toNat ∉ [0xe6, 0xe7, 0xe8] := by
      simp only [List.mem_cons, List.not_mem_nil, or_false, not_or]; omega
    have := hstd hn
    rw [(push_table _ ⟨h1, h2⟩).1] at this
    rw [this] at hinp hout
    subst hinp hout
    exact ⟨by simp, by simp, nodec hn⟩
  | dup _ w h1 h2 hw =>
    have hn : d.opcode.toNat ∉ [0xe6, 0xe7, 0xe8] := by
      simp only [List.mem_cons, List.not_mem_nil, or_false, not_or]; omega
    have := hstd hn
    rw [(dup_table _ ⟨h1, h2⟩).1] at this
    rw [this] at hinp hout
    have hl := (List.getElem?_eq_some_iff.1 hw).1
    subst hinp hout
    refine ⟨by dsimp only; omega, ?_, nodec hn⟩
    simp only [List.length_cons]; omega
  | swap x y m r h1 h2 hm =>
    have hn : d.opcode.toNat ∉ [0xe6, 0xe7, 0xe8] := by
      simp only [List.mem_cons, List.not_mem_nil, or_false, not_or]; omega
    have := hstd hn
    rw [(swap_table _ ⟨h1, h2⟩).1] at this
    rw [this] at hinp hout
    subst hinp hout
    refine ⟨?_, ?_, nodec hn⟩ <;> simp only [List.length_cons, List.length_append] <;> omega
  | dupn _ w n h1 hn hw =>
    have ho : d.opcode = op.DUPN := toNat_eq (k := 0xe6) (by omega) h1
    have hs := decodeSingle_spec (UInt8.ofNat (code.imm i).toNat)
    rw [hbyte, hn] at hs
    obtain ⟨k, hk, hkn⟩ := Option.map_eq_some_iff.1 hs
    unfold computeStackIo at hio
    dsimp only at hio
    rw [if_pos ho, hk] at hio
    simp only [Option.map_some, Option.getD_some, hkn] at hio
    rw [hio] at hinp hout
    have hl := (List.getElem?_eq_some_iff.1 hw).1
    subst hinp hout
    refine ⟨by dsimp only; omega, by simp only [List.length_cons]; omega,
      fun _ => by dsimp only; rw [hk]; simp, fun h => ?_⟩
    exact absurd (show op.DUPN = op.EXCHANGE from ho ▸ h) (by decide)
  | swapn x y m r h1 hn =>
    have ho : d.opcode = op.SWAPN := toNat_eq (k := 0xe7) (by omega) h1
    have hs := decodeSingle_spec (UInt8.ofNat (code.imm i).toNat)
    rw [hbyte, hn] at hs
    obtain ⟨k, hk, hkn⟩ := Option.map_eq_some_iff.1 hs
    unfold computeStackIo at hio
    dsimp only at hio
    rw [if_neg (by rw [ho]; decide), if_pos ho, hk] at hio
    simp only [Option.map_some, Option.getD_some, hkn] at hio
    rw [hio] at hinp hout
    subst hinp hout
    refine ⟨?_, ?_, fun _ => by dsimp only; rw [hk]; simp, fun h => ?_⟩
    · simp only [List.length_cons, List.length_append]; omega
    · simp only [List.length_cons, List.length_append]; omega
    exact absurd (show op.SWAPN = op.EXCHANGE from ho ▸ h) (by decide)
  | exchange x y p m r h1 hn =>
    have ho : d.opcode = op.EXCHANGE := toNat_eq (k := 0xe8) (by omega) h1
    have hs := decodePair_spec (UInt8.ofNat (code.imm i).toNat)
    rw [hbyte, hn] at hs
    obtain ⟨k, hk, hkn⟩ := Option.map_eq_some_iff.1 hs
    rw [Prod.mk.injEq] at hkn
    unfold computeStackIo at hio
    dsimp only at hio
    rw [if_neg (by rw [ho]; decide), if_neg (by rw [ho]; decide), if_pos ho, hk] at hio
    simp only [Option.map_some, Option.getD_some, hkn.2] at hio
    rw [hio] at hinp hout
    subst hinp hout
    refine ⟨?_, ?_, fun h => ?_, fun _ => by dsimp only; rw [hk]; simp⟩
    · simp only [List.length_cons, List.length_append]; omega
    · simp only [List.length_cons, List.length_append]; omega
    · rcases h with h | h
      · exact absurd (show op.EXCHANGE = op.DUPN from ho ▸ h) (by decide)
      · exact absurd (show op.EXCHANGE = op.SWAPN from ho ▸ h) (by decide)
  | pure args r w hw =>
    obtain ⟨ht, hlt, h50⟩ := evalOp_table hw
    have hn : d.opcode.toNat ∉ [0xe6, 0xe7, 0xe8] := by
      simp only [List.mem_cons, List.not_mem_nil, or_false, not_or]; omega
    have := hstd hn
    rw [ht] at this
    rw [this] at hinp hout
    subst hinp hout
    refine ⟨by simp, ?_, nodec hn⟩
    simp only [List.length_cons, List.length_append]; omega
  | other args res r h1 hn hl1 hl2 _ =>
    subst hl1 hl2
    refine ⟨by simp, ?_, nodec hn⟩
    simp only [List.length_append]; omega

/-- The interpreter follows a completed instruction. -/
theorem interpInst_follows {code : Code} {limit i : Nat} {st : AIState} {d : InstData} {a : List AbsValue}
    {c c' : List Word} (hl : d.flags.deadCode = false)
    (hio : d.stackIo = computeStackIo d.opcode (some [UInt8.ofNat (code.imm i).toNat]))
    (h : StackStep code.codeLen d.data d.opcode.toNat (code.imm i) d.stackIo.1 d.stackIo.2 c c')
    (ha : AdmitsStack a c) (hlen : d.stackIo.1 ≤ a.length) :
    ∃ a', (interpInst code limit st i d a).1 = some a' ∧ AdmitsStack a' c' ∧
      a'.length = a.length - d.stackIo.1 + d.stackIo.2 := by
  obtain ⟨st0, _, _, e⟩ := interpInst_stack (code := code) (limit := limit) (i := i) (st := st) (a := a) hl
  obtain ⟨a', e1, e2⟩ := interpOp_len (limit := limit) (st := st0) (s := a) hio (step_len hio h).2.2 hlen
  rw [e1] at e
  exact ⟨a', e, interpInst_sound hl (stdIo_of hio) h ha e, e2⟩

end Verif
