import Verif.Lemmas.WholeMemStep
import Verif.Lemmas.WholeEnd
import Verif.Lemmas.WholeExec
/-!
# The memory along whole executions
-/

namespace Verif
open Spec

section track
variable {base : List InstData} {ok : Nat → List Word → Prop} {o : WOpts} {C : Compiled} (G : GoodC base ok o C)
  (M : GoodM base C)
include G M

/-- Where an execution is, the analysis is right about the next instruction. -/
theorem GoodC.memAt {fuel : Nat} {tbl : List (Nat × MemSection)} (ht : C.memTable fuel = some tbl)
    (hlog : ∀ (i : Nat) (d : InstData), C.prog.insts[i]? = some d → NoSmallTopic C.ai (i, d))
    {i n b m0 : Nat} {blk : Nat × Nat} (h : InBlock C i n b blk m0) {c : List Word} {d : InstData}
    (hr : Reach C.code base ok i c) (hd : C.prog.insts[i]? = some d)
    (hoff : (d.flags.disabled || d.flags.unknown) = false) (hl : d.stackIo.1 ≤ c.length)
    (ha : Affordable d.opcode.toNat (c.take d.stackIo.1)) :
    MemAt C.ai C.prog.memBlocks fuel ((tbl.lookup i).getD {}) (i, d) (c.take d.stackIo.1) n := by
  have hlen : C.prog.memBlocks.length = C.prog.blocks.length := by unfold Prog.memBlocks; rw [List.length_map]
  refine ⟨?_, ?_, ?_, G.runs M hr hd hoff hl ha⟩
  · intro mb hmb s hs
    unfold Prog.memBlocks at hmb
    obtain ⟨x, _, rfl⟩ := List.mem_map.1 hmb
    rw [hlen]
    exact succs_lt hs
  · intro mb hmb q hq
    unfold Prog.memBlocks at hmb
    obtain ⟨x, _, rfl⟩ := List.mem_map.1 hmb
    exact hlog q.1 q.2 (mem_slice hq).1
  · obtain ⟨states, hst, _⟩ := Option.map_eq_some_iff.1 ht
    obtain ⟨mb, h1, h2, h3⟩ := memTable_lookup hst ht h.get h.le h.lt
    have hle := h.le
    have hlt := h.lt
    have hrg := C.prog.blocks_ok.range blk (List.mem_of_getElem? h.get)
    have hsl := slice_split (p := C.prog) (s := blk.1) (n := blk.2 - blk.1) (k := i - blk.1) (d := d)
      (by rw [show blk.1 + (i - blk.1) = i by omega]; exact hd) (by omega)
    rw [show blk.1 + (i - blk.1) = i by omega] at hsl
    refine ⟨states, b, mb, C.prog.slice blk.1 (i - blk.1),
      C.prog.slice (i + 1) (blk.2 - blk.1 - (i - blk.1) - 1), m0, hst, h.path, h1, ?_, h.runs, ?_⟩
    · rw [h2]
      unfold Prog.blockInsts
      exact hsl
    · rw [slice_len' (by omega)]
      exact h3

/-- What holds at every position of an execution. -/
structure MemInv (C : Compiled) (tbl : List (Nat × MemSection)) (W : MemWorld) (k i : Nat) (m : List UInt8)
    (ld : List (Nat × Word)) (tr : List (Nat × List Word)) (cx : MCx) : Prop where
  along : C.memAlong tbl W tr = some (cx, ld)
  good : GoodMem cx m
  inb : ∃ b blk m0, InBlock C i m.length b blk m0
  fresh : i ∉ C.heads → FreshReg cx
  small : m.length ≤ 2 ^ 63
  count : tr.length = k

theorem GoodC.memNext {fuel : Nat} {tbl : List (Nat × MemSection)} (ht : C.memTable fuel = some tbl)
    (hlog : ∀ (i : Nat) (d : InstData), C.prog.insts[i]? = some d → NoSmallTopic C.ai (i, d))
    {W : MemWorld} (hw : KeepsSize W.wr) {k i : Nat} {c : List Word} {m : List UInt8} {ld : List (Nat × Word)}
    {tr : List (Nat × List Word)} {cx : MCx} (h : MemInv C tbl W k i m ld tr cx) (hr : Reach C.code base ok i c)
    {d : InstData} (hd : C.prog.insts[i]? = some d) (hoff : (d.flags.disabled || d.flags.unknown) = false)
    (hl : d.stackIo.1 ≤ c.length) (ha : Affordable d.opcode.toNat (c.take d.stackIo.1)) :
    ∃ cx', C.memInst tbl W k i (c.take d.stackIo.1) cx =
        some (cx', memAnswer d.opcode.toNat (c.take d.stackIo.1) m) ∧
      GoodMem cx' (memAfter W.wr k i d.opcode.toNat (c.take d.stackIo.1) m) ∧ (d.maySuspend = false → FreshReg cx') := by
  obtain ⟨b, blk, m0, hb⟩ := h.inb
  exact G.memInst M hw hb.get hb.le hb.lt hd h.small (G.memAt M ht hlog hb hr hd hoff hl ha) h.good h.fresh k

theorem GoodC.memTrack {fuel : Nat} {tbl : List (Nat × MemSection)} (ht : C.memTable fuel = some tbl)
    (hlog : ∀ (i : Nat) (d : InstData), C.prog.insts[i]? = some d → NoSmallTopic C.ai (i, d))
    {W : MemWorld} (hw : KeepsSize W.wr) {k i : Nat} {c : List Word} {m : List UInt8} {ld : List (Nat × Word)}
    {tr : List (Nat × List Word)} (h : MemRun C.code base W.wr ok k i c m ld tr) :
    ∃ cx, MemInv C tbl W k i m ld tr cx := by
  induction h with
  | start hok =>
    obtain ⟨blk, hb, hs⟩ := G.inBlock_start hok
    refine ⟨_, rfl, ⟨rfl, rfl, rfl⟩, ⟨_, _, _, hb⟩, fun _ => .inl rfl, by simp, rfl⟩
  | @step k i i' c c' m ld tr d0 hrun h0 hs ha _ hok ih =>
    obtain ⟨cx, h⟩ := ih
    have hr := hrun.reach
    obtain ⟨d, hd, hlive⟩ := G.sound.live i c hr
    have he := G.sound.ev.inst _ _ _ h0 hd
    obtain ⟨hh, hio, hstep⟩ := step_effect G.wf G.sound.ev hs hd
    have hl := (step_len hio hstep).1
    have hoff := not_halts_off hh
    rw [← he.op, ← he.io] at ha ⊢
    obtain ⟨cx', e1, e2, e3⟩ := G.memNext M ht hlog hw h hr hd hoff hl ha
    have hlen := memAfter_length hw k i d.opcode.toNat (c.take d.stackIo.1) m
    refine ⟨cx', ?_, e2, ?_, ?_, ?_, ?_⟩
    · unfold Compiled.memAlong
      rw [h.along, Option.bind_some, h.count]
      dsimp only
      rw [e1]
      rfl
    · rw [hlen]
      obtain ⟨b, blk, m0, hb⟩ := h.inb
      rcases G.inBlock_step M hb hr hd hs hok ha with ⟨_, _, q⟩ | ⟨b', blk', _, q⟩
      · exact ⟨_, _, _, q⟩
      · exact ⟨_, _, _, q⟩
    · intro hn
      obtain ⟨b, blk, m0, hb⟩ := h.inb
      rcases G.inBlock_step M hb hr hd hs hok ha with ⟨q1, q2, q3⟩ | ⟨b', blk', q1, q2⟩
      · refine e3 ?_
        cases hsus : d.maySuspend with
        | false => rfl
        | true =>
          refine absurd ?_ hn
          rw [q1]
          refine G.head_next hb.get hb.le (by omega) hd ?_
          unfold InstData.endsSection
          rw [hsus]
          rfl
      · refine absurd ?_ hn
        rw [← q1]
        exact G.head_start q2.get
    · rw [hlen]
      exact size_le h.small ha
    · rw [List.length_cons, h.count]

end track

/-! ## Concrete executions -/

/-- `n` steps of the EVM with its memory, while the stack has at most `cap` words. -/
def memEval (cap : Nat) (code : Code) (insts : List InstData) (env : Env (List Word))
    (wr : Nat → Nat → List Word → List UInt8 → List UInt8) :
    Nat → Option (Nat × List Word × List UInt8 × List (Nat × Word) × List (Nat × List Word))
  | 0 => some (0, [], [], [], [])
  | k + 1 =>
    match memEval cap code insts env wr k with
    | none => none
    | some (i, c, m, ld, tr) =>
      match insts[i]? with
      | none => none
      | some d =>
        match evmStep code insts env k i c with
        | none => none
        | some (i', c') =>
          if (memRanges d.opcode.toNat (c.take d.stackIo.1)).all (fun r => r.2 == 0 || decide (r.1 + r.2 < 2 ^ 63)) &&
              (memAnswer d.opcode.toNat (c.take d.stackIo.1) m).all (fun w => c'.head? == some w) &&
              decide (c'.length ≤ cap) then
            some (i', c', memAfter wr k i d.opcode.toNat (c.take d.stackIo.1) m,
              (memAnswer d.opcode.toNat (c.take d.stackIo.1) m).toList.map (fun w => (k, w)) ++ ld,
              (i, c.take d.stackIo.1) :: tr)
          else none

theorem memEval_run {cap : Nat} {code : Code} {insts : List InstData} {env : Env (List Word)}
    {wr : Nat → Nat → List Word → List UInt8 → List UInt8} {ok : Nat → List Word → Prop}
    (hw : ∀ k i d args, insts[i]? = some d → (env k i args).1.length = d.stackIo.2)
    (hio : ∀ (i : Nat) d, insts[i]? = some d → ¬ Halts d → d.opcode.toNat = 0x56 ∨ d.opcode.toNat = 0x57 →
      d.stackIo = if d.opcode.toNat = 0x57 then (2, 0) else (1, 0))
    (hok : ∀ i c, c.length ≤ cap → ok i c) :
    ∀ {k i : Nat} {c : List Word} {m : List UInt8} {ld : List (Nat × Word)} {tr : List (Nat × List Word)},
      memEval cap code insts env wr k = some (i, c, m, ld, tr) → MemRun code insts wr ok k i c m ld tr
  | 0, i, c, m, ld, tr, h => by
    cases h
    exact .start (hok _ _ (Nat.zero_le _))
  | k + 1, i, c, m, ld, tr, h => by
    unfold memEval at h
    split at h
    · cases h
    · rename_i i0 c0 m0 ld0 tr0 h0
      have ih := memEval_run hw hio hok h0
      split at h
      · cases h
      · rename_i d hd
        split at h
        · cases h
        · rename_i i' c' hs
          split at h
          · rename_i hcond
            cases h
            simp only [Bool.and_eq_true, List.all_eq_true, Bool.or_eq_true, beq_iff_eq, decide_eq_true_eq,
              Option.all_eq_true] at hcond
            refine .step ih hd (evmStep_sound hw hd (hio i0 d hd) hs).1 ?_ hcond.1.2 (hok _ _ hcond.2)
            intro r hr hne
            exact (hcond.1.1 r hr).resolve_left hne
          · cases h

theorem demo_mem_run {cap : Nat} {g : UInt8 → BitVec 16} {spec : SpecId} {bytes : List UInt8} (hlen : bytes.length ≤ 2 ^ 31)
    {env : Env (List Word)} {ok : Nat → List Word → Prop}
    (hw : ∀ k i d args, (parse g spec bytes).toProg.insts[i]? = some d → (env k i args).1.length = d.stackIo.2)
    (hok : ∀ i c, c.length ≤ cap → ok i c)
    {wr : Nat → Nat → List Word → List UInt8 → List UInt8}
    {k i : Nat} {c : List Word} {m : List UInt8} {ld : List (Nat × Word)} {tr : List (Nat × List Word)}
    (h : memEval cap (parse g spec bytes).toCode (parse g spec bytes).toProg.insts env wr k = some (i, c, m, ld, tr)) :
    MemRun (parse g spec bytes).toCode (parse g spec bytes).toProg.insts wr ok k i c m ld tr :=
  memEval_run hw (parse_jump_io g spec bytes hlen) hok h

end Verif
