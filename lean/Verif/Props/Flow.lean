import Verif.Lemmas.FlowRun
/-!
# C15 (resolved jumps), C16 (dead code), C50 (recorded constants), over all executions

`analyzeBytes` is parsing followed by the control-flow passes. Executions are those of the EVM on the parsed
program (`Reach`): from an empty stack, with arbitrary answers of the environment.

The analysis tracks at most 64 stack items between blocks and takes a block that pops more for unreachable,
so the statements are false for executions that enter a block with more than 64 items (`…_fails`), and are
proved for all the others (`…_partial`, hypothesis `shallow`).
-/

namespace Verif
open Spec

/-- What the flags of an executed jump must say about the value `w` on top of the stack: a set of targets
contains the instruction at counter `w`; a single target is the instruction at counter `w` (or the next
instruction, if the JUMPI has been found never to be taken, and is not); an invalid jump's `w` is no valid
destination. -/
structure JumpClaim (b : Parsed) (p : Prog) (i : Nat) (d : InstData) (c : List Word) : Prop where
  multi : d.flags.multiJump = true →
    ∃ t ∈ (p.multi.lookup i).getD [], b.instPc t = some (c.headD 0).toNat ∧ b.isValidJump (c.headD 0).toNat = true
  single : d.flags.staticJump = true → d.flags.multiJump = false → d.flags.invalidJump = false →
    (b.instPc d.staticJumpTarget = some (c.headD 0).toNat ∧ b.isValidJump (c.headD 0).toNat = true) ∨
      (d.opcode = op.JUMPI ∧ d.flags.constJumpCond = true ∧ c.tail.headD 0 = 0 ∧ d.staticJumpTarget = i + 1)
  invalid : d.flags.invalidJump = true → b.isValidJump (c.headD 0).toNat = false

/-- An instruction of the analysed program that is a JUMP or JUMPI with its operands on the stack. -/
structure AtJump (p : Prog) (i : Nat) (d : InstData) (c : List Word) : Prop where
  get : p.insts[i]? = some d
  jump : d.opcode = op.JUMP ∨ d.opcode = op.JUMPI
  args : (if d.opcode = op.JUMP then 1 else 2) ≤ c.length

theorem target_some {g : UInt8 → BitVec 16} {spec : SpecId} {bytes : List UInt8} {w : Word} {t : Nat}
    (h : (parse g spec bytes).toCode.target w = some t) :
    (parse g spec bytes).instPc t = some w.toNat ∧ (parse g spec bytes).isValidJump w.toNat = true := by
  unfold Parsed.toCode at h
  dsimp only at h
  split at h
  · rename_i hv
    obtain ⟨x, hx, hx1, _⟩ := (isValidJump_iff g spec bytes _).1 hv
    have hlt : x.1 < bytes.length := by
      rw [realInsts_eq] at hx
      exact loop_lt g spec bytes x hx
    exact ⟨(C02_pc_maps g spec bytes t w.toNat (hx1 ▸ hlt)).1 h, hv⟩
  · cases h

theorem target_none {g : UInt8 → BitVec 16} {spec : SpecId} {bytes : List UInt8} {w : Word}
    (h : (parse g spec bytes).toCode.target w = none) : (parse g spec bytes).isValidJump w.toNat = false := by
  unfold Parsed.toCode at h
  dsimp only at h
  split at h
  · rename_i hv
    obtain ⟨x, hx, hx1, _⟩ := (isValidJump_iff g spec bytes _).1 hv
    have hlt : x.1 < bytes.length := by
      rw [realInsts_eq] at hx
      exact loop_lt g spec bytes x hx
    have hxm : x ∈ (parse g spec bytes).insts := by
      unfold realInsts at hx
      exact (List.mem_filter.1 hx).1
    obtain ⟨j, hj⟩ := List.mem_iff_getElem?.1 hxm
    have := (C02_pc_maps g spec bytes j w.toNat (hx1 ▸ hlt)).2 (by
      unfold Parsed.instPc; rw [hj, ← hx1]; rfl)
    rw [h] at this
    cases this
  · rename_i hv
    simpa using hv

theorem sound_bytes {g : UInt8 → BitVec 16} {spec : SpecId} {limit : Nat} {bytes : List UInt8}
    (hlen : bytes.length ≤ 2 ^ 31) :
    let b := parse g spec bytes
    Sound b.toCode b.toProg.insts (shallow b.toProg.insts) (analyzeBytes g spec limit bytes).1 ∧
    SnapOk b.toCode b.toProg.insts (shallow b.toProg.insts) (analyzeBytes g spec limit bytes).2 ∧
    OutOk b.toCode b.toProg.insts (shallow b.toProg.insts) (analyzeBytes g spec limit bytes).2 ∧
    Flagged (analyzeBytes g spec limit bytes).1 :=
  analyzeFlow_sound (flowWf_parse g spec bytes hlen) (fun _ _ h => h)

theorem jump_runs {g : UInt8 → BitVec 16} {spec : SpecId} {bytes : List UInt8} {i : Nat} {d : InstData}
    (hd : (parse g spec bytes).toProg.insts[i]? = some d) (hj : d.opcode = op.JUMP ∨ d.opcode = op.JUMPI) :
    ¬ Halts d := by
  obtain ⟨pc, hpc⟩ := toProg_get hd
  have hact : opActive (makeMap g spec d.opcode) = true := by
    rw [opActive_iff]
    refine ⟨SpecId.FRONTIER, ?_, Nat.zero_le _⟩
    rcases hj with h | h <;> rw [h] <;> decide
  unfold opActive at hact
  rcases parse_mem g spec bytes (List.mem_of_getElem? hpc) with hm | hm
  · obtain ⟨_, _, _, it0, _, _, h⟩ := parseLoop_mem _ bytes bytes 0 [] (Or.inr (by simp)) _ hm
    dsimp only at h
    have h1 : d.flags.unknown = (makeMap g spec d.opcode).isUnknown := (congrArg (·.flags.unknown) h)
    have h2 : d.flags.disabled = (makeMap g spec d.opcode).isDisabled := (congrArg (·.flags.disabled) h)
    rw [← h1, ← h2] at hact
    simp only [Bool.not_eq_true', Bool.or_eq_false_iff] at hact
    unfold Halts
    rw [hact.1, hact.2]
    rcases hj with h | h <;> rw [h] <;> decide
  · rw [Prod.mk.injEq] at hm
    rw [hm.2] at hj
    exact absurd hj (by decide)

theorem atJump_base {g : UInt8 → BitVec 16} {spec : SpecId} {limit : Nat} {bytes : List UInt8} {i : Nat}
    {d : InstData} {c : List Word} (hlen : bytes.length ≤ 2 ^ 31)
    (h : AtJump (analyzeBytes g spec limit bytes).1 i d c) : d.isJump = true ∧ ¬ Halts d ∧ HasArgs d c := by
  obtain ⟨hs, _⟩ := sound_bytes (g := g) (spec := spec) (limit := limit) hlen
  obtain ⟨d0, hd0, he⟩ := hs.ev.back h.get
  refine ⟨?_, fun hh => ?_, h.args⟩
  · unfold InstData.isJump
    simpa using h.jump
  · exact jump_runs hd0 (by rw [← he.op]; exact h.jump) (he.halts.1 hh)

/-! ## C15 -/

/-- C15, full statement: in every execution, what the flags of every executed jump say is true. -/
def C15_resolved : Prop :=
  ∀ (g : UInt8 → BitVec 16) (spec : SpecId) (limit : Nat) (bytes : List UInt8), bytes.length ≤ 2 ^ 31 →
    ∀ (i : Nat) (c : List Word) (d : InstData),
      Reach (parse g spec bytes).toCode (parse g spec bytes).toProg.insts always i c →
      AtJump (analyzeBytes g spec limit bytes).1 i d c →
      JumpClaim (parse g spec bytes) (analyzeBytes g spec limit bytes).1 i d c

/-- C15, proved part: the executions that never have more than 64 words on the stack at a JUMPDEST or right
after a JUMPI. Missing: the other executions, for which the claim is false (`C15_resolved_fails`). -/
theorem C15_resolved_partial (g : UInt8 → BitVec 16) (spec : SpecId) (limit : Nat) (bytes : List UInt8)
    (hlen : bytes.length ≤ 2 ^ 31) (i : Nat) (c : List Word) (d : InstData)
    (hr : Reach (parse g spec bytes).toCode (parse g spec bytes).toProg.insts
      (shallow (parse g spec bytes).toProg.insts) i c)
    (hj : AtJump (analyzeBytes g spec limit bytes).1 i d c) :
    JumpClaim (parse g spec bytes) (analyzeBytes g spec limit bytes).1 i d c := by
  obtain ⟨hs, _⟩ := sound_bytes (g := g) (spec := spec) (limit := limit) hlen
  obtain ⟨j1, j2, j3⟩ := atJump_base hlen hj
  obtain ⟨a, b, e⟩ := hs.says i c d hr hj.get j1 j2 j3
  refine ⟨fun h => ?_, fun h1 h2 h3 => ?_, fun h => target_none (b h)⟩
  · obtain ⟨t, ht, hw⟩ := a h
    exact ⟨t, ht, target_some hw⟩
  · rcases e h1 h2 h3 with h | h
    · exact .inl (target_some h)
    · exact .inr h

/-- C15, proved part, for the generated code: from every executed jump it goes to the instruction the EVM
goes to, and fails with an invalid jump exactly when the EVM does. Missing: executions with more than 64
words on the stack at a block entry. -/
theorem C15_next_partial (g : UInt8 → BitVec 16) (spec : SpecId) (limit : Nat) (bytes : List UInt8)
    (hlen : bytes.length ≤ 2 ^ 31) (i : Nat) (c : List Word) (d : InstData)
    (hr : Reach (parse g spec bytes).toCode (parse g spec bytes).toProg.insts
      (shallow (parse g spec bytes).toProg.insts) i c)
    (hj : AtJump (analyzeBytes g spec limit bytes).1 i d c) :
    (analyzeBytes g spec limit bytes).1.compiledNext (parse g spec bytes).toCode i d c =
      evmNext (parse g spec bytes).toCode i d c := by
  obtain ⟨hs, _⟩ := sound_bytes (g := g) (spec := spec) (limit := limit) hlen
  obtain ⟨j1, j2, j3⟩ := atJump_base hlen hj
  exact hs.next i c d hr hj.get j1 j2 j3

/-- `CALLDATASIZE; PUSH1 A; JUMPI; PUSH0 ×65; PUSH1 B; JUMP; INVALID; A: JUMPDEST; PUSH1 X; PUSH1 D; JUMP;
B: JUMPDEST; POP ×65; PUSH1 Y; PUSH1 D; JUMP; INVALID ×2; D: JUMPDEST; JUMP; INVALID ×2; X: JUMPDEST; STOP;
Y: JUMPDEST; STOP`, with A = 73, B = 79, D = 152, X = 156, Y = 158. -/
def deepCode : List UInt8 :=
  [0x36, 0x60, 0x49, 0x57] ++ List.replicate 65 0x5f ++ [0x60, 0x4f, 0x56, 0xfe] ++
  [0x5b, 0x60, 0x9c, 0x60, 0x98, 0x56] ++
  [0x5b] ++ List.replicate 65 0x50 ++ [0x60, 0x9e, 0x60, 0x98, 0x56] ++
  [0xfe, 0xfe, 0x5b, 0x56, 0xfe, 0xfe, 0x5b, 0x00, 0x5b, 0x00]

/-- The execution of `deepCode` with empty call data reaches the jump of D with Y on the stack. -/
theorem deep_at_jump : Reach (parse (fun _ => 3) SpecId.CANCUN deepCode).toCode
    (parse (fun _ => 3) SpecId.CANCUN deepCode).toProg.insts always 147 [158] :=
  demo_always (ans := 0) (n := 140) (s := (147, [158])) (by decide +kernel)

/-- C15 fails: with empty call data, the jump at D of `deepCode` is resolved to X alone but executed with Y
on the stack. -/
theorem C15_resolved_fails : ¬ C15_resolved := by
  intro h
  have hd : (analyzeBytes (fun _ => 3) SpecId.CANCUN 1000 deepCode).1.insts[147]?.map
      (fun d => (d.opcode, d.flags.staticJump, d.flags.multiJump, d.flags.invalidJump, d.data)) =
      some (op.JUMP, true, false, false, 150) := by decide +kernel
  obtain ⟨d, hd, he⟩ := Option.map_eq_some_iff.1 hd
  simp only [Prod.mk.injEq] at he
  have := (h (fun _ => 3) SpecId.CANCUN 1000 deepCode (by decide +kernel) 147 [158] d deep_at_jump
    ⟨hd, .inl he.1, by rw [if_pos he.1]; decide⟩).single he.2.1 he.2.2.1 he.2.2.2.1
  rcases this with h | h
  · unfold InstData.staticJumpTarget at h
    rw [he.2.2.2.2] at h
    exact absurd h.1 (by decide +kernel)
  · rw [he.1] at h
    exact absurd h.1 (by decide)

/-- `CALLDATASIZE; PUSH1 A; JUMPI; PUSH1 X; PUSH1 D; JUMP; A: JUMPDEST; PUSH1 Y; PUSH1 D; JUMP;
D: JUMPDEST; JUMP; X: JUMPDEST; STOP; Y: JUMPDEST; STOP`: the jump of D is resolved to a set of two. -/
def twoWays : List UInt8 :=
  [0x36, 0x60, 0x09, 0x57, 0x60, 0x11, 0x60, 0x0f, 0x56, 0x5b, 0x60, 0x13, 0x60, 0x0f, 0x56, 0x5b, 0x56,
    0x5b, 0x00, 0x5b, 0x00]

/-- Both ways through `twoWays` are executions the theorems speak about, and the jump they reach is
resolved to the two destinations. -/
example :
    Reach (parse (fun _ => 3) SpecId.CANCUN twoWays).toCode (parse (fun _ => 3) SpecId.CANCUN twoWays).toProg.insts
      (shallow (parse (fun _ => 3) SpecId.CANCUN twoWays).toProg.insts) 11 [17] ∧
    Reach (parse (fun _ => 3) SpecId.CANCUN twoWays).toCode (parse (fun _ => 3) SpecId.CANCUN twoWays).toProg.insts
      (shallow (parse (fun _ => 3) SpecId.CANCUN twoWays).toProg.insts) 11 [19] ∧
    ((analyzeBytes (fun _ => 3) SpecId.CANCUN 1000 twoWays).1.insts[11]?.map
      fun d => (d.opcode, d.flags.multiJump)) = some (op.JUMP, true) ∧
    (analyzeBytes (fun _ => 3) SpecId.CANCUN 1000 twoWays).1.multi.lookup 11 = some [12, 14] := by
  refine ⟨demo_shallow (ans := 0) (n := 7) (s := (11, [17])) (by decide +kernel),
    demo_shallow (ans := 5) (n := 8) (s := (11, [19])) (by decide +kernel), by decide +kernel, by decide +kernel⟩

/-! ## C16 -/

/-- C16, full statement: no executed instruction is marked dead. -/
def C16_dead : Prop :=
  ∀ (g : UInt8 → BitVec 16) (spec : SpecId) (limit : Nat) (bytes : List UInt8), bytes.length ≤ 2 ^ 31 →
    ∀ (i : Nat) (c : List Word),
      Reach (parse g spec bytes).toCode (parse g spec bytes).toProg.insts always i c →
      ∃ d, (analyzeBytes g spec limit bytes).1.insts[i]? = some d ∧ d.flags.deadCode = false

/-- C16, proved part: the executions that never have more than 64 words on the stack at a JUMPDEST or right
after a JUMPI, with resolved, invalid and dynamic jumps. Missing: the other executions, for which the claim
is false (`C16_dead_fails`). -/
theorem C16_dead_partial (g : UInt8 → BitVec 16) (spec : SpecId) (limit : Nat) (bytes : List UInt8)
    (hlen : bytes.length ≤ 2 ^ 31) (i : Nat) (c : List Word)
    (hr : Reach (parse g spec bytes).toCode (parse g spec bytes).toProg.insts
      (shallow (parse g spec bytes).toProg.insts) i c) :
    ∃ d, (analyzeBytes g spec limit bytes).1.insts[i]? = some d ∧ d.flags.deadCode = false :=
  (sound_bytes (g := g) (spec := spec) (limit := limit) hlen).1.live i c hr

/-- C16 fails: with empty call data, `deepCode` executes Y, which is marked dead. -/
theorem C16_dead_fails : ¬ C16_dead := by
  intro h
  have hr : Reach (parse (fun _ => 3) SpecId.CANCUN deepCode).toCode
      (parse (fun _ => 3) SpecId.CANCUN deepCode).toProg.insts always 152 [] :=
    demo_always (ans := 0) (n := 141) (s := (152, [])) (by decide +kernel)
  obtain ⟨d, h1, h2⟩ := h (fun _ => 3) SpecId.CANCUN 1000 deepCode (by decide +kernel) 152 [] hr
  have hd : (analyzeBytes (fun _ => 3) SpecId.CANCUN 1000 deepCode).1.insts[152]?.map
      (fun d => d.flags.deadCode) = some true := by decide +kernel
  rw [h1, Option.map_some, h2] at hd
  cases hd

/-- `PUSH0; CALLDATALOAD; JUMP; INVALID; A: JUMPDEST; PUSH1 A; JUMP; INVALID; JUMPDEST; STOP`: with a dynamic
jump every JUMPDEST is kept, the code behind jumps is dead. -/
example : ((analyzeBytes (fun _ => 3) SpecId.CANCUN 1000
    [0x5f, 0x35, 0x56, 0xfe, 0x5b, 0x60, 0x04, 0x56, 0xfe, 0x5b, 0x00]).1.insts.map
      fun d => (d.opcode, d.flags.deadCode)) =
    [(0x5f, false), (0x35, false), (0x56, false), (0xfe, true), (0x5b, false), (0x60, false), (0x56, false),
      (0xfe, true), (0x5b, false), (0x00, false)] := by decide +kernel

/-! ## C50 -/

/-- C50, full statement: an operand recorded as a constant has that value in every execution; an output
recorded as a constant is what every execution of the instruction pushes. -/
def C50_constants : Prop :=
  ∀ (g : UInt8 → BitVec 16) (spec : SpecId) (limit : Nat) (bytes : List UInt8), bytes.length ≤ 2 ^ 31 →
    ∀ (i : Nat) (c : List Word) (d : InstData),
      Reach (parse g spec bytes).toCode (parse g spec bytes).toProg.insts always i c →
      (parse g spec bytes).toProg.insts[i]? = some d → d.stackIo.1 ≤ c.length →
      (∀ n v, n < d.stackIo.1 → (analyzeBytes g spec limit bytes).2.constOperand i n = some v → c[n]? = some v) ∧
      (∀ i' c' v, Step (parse g spec bytes).toCode (parse g spec bytes).toProg.insts i c i' c' →
        0 < d.stackIo.2 → isSwapLike d.opcode = false →
        (analyzeBytes g spec limit bytes).2.constOutput i = some v → c'.head? = some v)

theorem asConst_admits {v : AbsValue} {x w : Word} (h : v.asConst = some x) (ha : Admits v w) : w = x := by
  cases v with
  | const y => cases h; exact ha
  | constSet s => cases h
  | top => cases h

/-- C50, proved part: the executions that never have more than 64 words on the stack at a JUMPDEST or right
after a JUMPI. Missing: the other executions, for which the claim is false (`C50_constants_fails`). -/
theorem C50_constants_partial (g : UInt8 → BitVec 16) (spec : SpecId) (limit : Nat) (bytes : List UInt8)
    (hlen : bytes.length ≤ 2 ^ 31) (i : Nat) (c : List Word) (d : InstData)
    (hr : Reach (parse g spec bytes).toCode (parse g spec bytes).toProg.insts
      (shallow (parse g spec bytes).toProg.insts) i c)
    (hd : (parse g spec bytes).toProg.insts[i]? = some d) (hargs : d.stackIo.1 ≤ c.length) :
    (∀ n v, n < d.stackIo.1 → (analyzeBytes g spec limit bytes).2.constOperand i n = some v → c[n]? = some v) ∧
    (∀ i' c' v, Step (parse g spec bytes).toCode (parse g spec bytes).toProg.insts i c i' c' →
      0 < d.stackIo.2 → isSwapLike d.opcode = false →
      (analyzeBytes g spec limit bytes).2.constOutput i = some v → c'.head? = some v) := by
  obtain ⟨_, hs, ho, _⟩ := sound_bytes (g := g) (spec := spec) (limit := limit) hlen
  refine ⟨fun n v hn hv => ?_, fun i' c' v hst hout hsw hv => ?_⟩
  · obtain ⟨a, h1, h2, h3⟩ := hs i c d hr hd (by omega) hargs
    unfold AIState.constOperand at hv
    rw [h1, List.reverse_reverse, List.getElem?_take_of_lt hn] at hv
    obtain ⟨x, hx1, hx2⟩ := Option.bind_eq_some_iff.1 hv
    have hc : n < c.length := by omega
    rw [List.getElem?_eq_getElem hc]
    rw [asConst_admits hx2 (h2 n x _ hx1 (List.getElem?_eq_getElem hc))]
  · unfold AIState.constOutput at hv
    obtain ⟨x, hx1, hx2⟩ := Option.bind_eq_some_iff.1 hv
    obtain ⟨w, hw, ha⟩ := ho i c i' c' d x hr hst hd hout hsw hx1
    rw [hw, asConst_admits hx2 ha]

/-- C50 fails: with empty call data, the operand of the jump at D of `deepCode` is recorded as the constant X
but is Y. -/
theorem C50_constants_fails : ¬ C50_constants := by
  intro h
  have hd : (parse (fun _ => 3) SpecId.CANCUN deepCode).toProg.insts[147]?.map
      (fun d => (d.opcode, d.stackIo)) = some (op.JUMP, 1, 0) := by decide +kernel
  obtain ⟨d, hd, he⟩ := Option.map_eq_some_iff.1 hd
  simp only [Prod.mk.injEq] at he
  have hio : d.stackIo = (1, 0) := he.2
  have := (h (fun _ => 3) SpecId.CANCUN 1000 deepCode (by decide +kernel) 147 [158] d deep_at_jump hd
    (by rw [hio]; decide)).1 0 156 (by rw [hio]; decide) (by decide +kernel)
  exact absurd this (by decide)

/-- In `twoWays` the operands of the jumps into D are recorded as constants, that of D's jump is not; the
results of the pushes are. -/
example :
    ((List.range 16).map fun i => (analyzeBytes (fun _ => 3) SpecId.CANCUN 1000 twoWays).2.constOperand i 0) =
      [none, none, some 9, none, none, some 15, none, none, none, some 15, none, none, none, none, none, none] ∧
    ((List.range 6).map fun i => (analyzeBytes (fun _ => 3) SpecId.CANCUN 1000 twoWays).2.constOutput i) =
      [none, some 9, none, some 17, some 15, none] := by decide +kernel

end Verif
