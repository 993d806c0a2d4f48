import Verif.Lemmas.WholeInv
import Verif.Props.MemSections
import Verif.Spec.WholeMem
/-!
# Executions of bytecodes follow the graph of the memory analysis
-/

namespace Verif
open Spec

/-! ## Edges -/

/-- A jump that the compiled code takes goes to one of its targets, or is dynamic. -/
theorem dest_known {p : Prog} {code : Code} {i t : Nat} {d : InstData} {w : Word} (hj : d.isJump = true)
    (h : p.destOf code i d w = some t) :
    t ∈ p.jumpTargets i d ∨ (d.flags.staticJump = false ∧ d.flags.invalidJump = false) := by
  unfold Prog.destOf at h
  split at h
  · simp at h
  · rename_i hinv
    split at h
    · rename_i hmul
      left
      rw [Option.filter_eq_some_iff] at h
      have hmem := List.contains_iff_mem.1 h.2
      unfold Prog.jumpTargets
      have hsome : (p.multi.lookup i).isSome = true := by
        cases hl : p.multi.lookup i with
        | none => rw [hl] at hmem; simp at hmem
        | some _ => rfl
      rw [if_pos ⟨hmul, hsome⟩]
      exact hmem
    · rename_i hmul
      split at h
      · rename_i hst
        left
        cases h
        unfold Prog.jumpTargets InstData.isStaticJump
        rw [if_neg (fun x => hmul x.1), hj, hst]
        simp [hinv]
      · rename_i hst
        exact .inr ⟨by simpa using hst, by simpa using hinv⟩

/-- A step out of a block leads to the start of a successor, or of a dynamic target if the block jumps
dynamically. -/
theorem mem_edge {code : Code} {base : List InstData} {ok : Nat → List Word → Prop} {p : Prog}
    (wf : FlowWf code base) (h : Sound code base ok p) (hf : Flagged p) {b i' : Nat} {blk : Nat × Nat}
    (hb : p.blocks[b]? = some blk) {i : Nat} (hi : i + 1 = blk.2) {c c' : List Word}
    (hr : Reach code base ok i c) (hs : Step code base i c i' c') (hok : ok i' c') :
    ∃ (s : Nat) (blk' : Nat × Nat), p.blocks[s]? = some blk' ∧ blk'.1 = i' ∧
      (s ∈ p.succs p.blocks blk ∨
        ((p.hasDyn && (p.insts[blk.2 - 1]?).any fun d => d.isJump && !d.isStaticJump && !d.flags.invalidJump) = true ∧
          (p.hasDyn && (p.insts[blk'.1]?).any fun d => d.isReachableJumpdest true) = true)) := by
  obtain ⟨s, blk', hs', e⟩ := next_start wf h hf hb hi hr hs hok
  refine ⟨s, blk', hs', e, ?_⟩
  have hi' : blk.2 - 1 = i := by omega
  have hrange' := p.blocks_ok.range blk' (List.mem_of_getElem? hs')
  have hits : instToBlock p.blocks i' = some s := (instToBlock_iff p i' s).2 ⟨blk', hs', by omega, by omega⟩
  obtain ⟨d, hd, hl⟩ := h.live i c hr
  have hsucc : (i' = i + 1 ∧ d.canFallThrough = true) ∨ i' ∈ p.jumpTargets i d → s ∈ p.succs p.blocks blk := by
    intro hx
    refine (mem_succs (by rw [hi']; exact hd)).2 ?_
    rcases hx with ⟨rfl, hc⟩ | hx
    · exact .inl ⟨hc, by rw [hi']; exact hits⟩
    · exact .inr ⟨i', by rw [hi']; exact hx, hits⟩
  cases leaves_of_step wf h hf hr hs hd with
  | falls h1 h2 => exact .inl (hsucc (.inl ⟨h1, h2⟩))
  | next h1 h2 h3 h4 h5 h6 =>
    refine .inl (hsucc (.inr ?_))
    unfold Prog.jumpTargets
    rw [if_neg (fun x => by rw [h4] at x; exact absurd x.1 (by decide)), h2, h3]
    simp [h5, h1]
  | jumps dt hj hdt hreach =>
    obtain ⟨d0, hd0, he⟩ := h.ev.back hd
    have hh : ¬ Halts d := (step_effect wf h.ev hs hd).1
    obtain ⟨hev, hargs⟩ := step_evmNext hs hd0 he.op hj
    have hn := (h.next i c d hr hd hj hh hargs).trans hev
    have hdest : p.destOf code i d (c.headD 0) = some i' ∨ (i' = i + 1 ∧ d.canFallThrough = true) := by
      rw [compiledNext_eq] at hn
      split at hn
      · rename_i hc
        split at hn
        · refine .inr ⟨(Option.some.inj hn).symm, ?_⟩
          exact jumpi_falls hh (by rw [hc.1]; rfl) (by unfold InstData.hasConstJumpiCondition; rw [hc.2]; simp)
        · exact .inl hn
      · exact .inl hn
    rcases hdest with hdest | hfall
    · rcases dest_known hj hdest with q | ⟨q1, q2⟩
      · exact .inl (hsucc (.inr q))
      · right
        have hdyn := hf.dyn i d hd hl hj q1
        rw [hi', hd, e, hdt, hdyn]
        rw [hdyn] at hreach
        simp only [Option.any_some, Bool.true_and]
        refine ⟨?_, hreach⟩
        unfold InstData.isStaticJump
        rw [hj, q1, q2]; rfl
    · exact .inl (hsucc (.inl hfall))

/-! ## Executed instructions -/

theorem memBlocks_get {p : Prog} {b : Nat} {blk : Nat × Nat} (hb : p.blocks[b]? = some blk) :
    p.memBlocks[b]? = some
      { insts := p.blockInsts blk
        succs := p.succs p.blocks blk
        dynJump := p.hasDyn && (p.insts[blk.2 - 1]?).any fun d => d.isJump && !d.isStaticJump && !d.flags.invalidJump
        dynTarget := p.hasDyn && (p.insts[blk.1]?).any fun d => d.isReachableJumpdest true } := by
  unfold Prog.memBlocks
  rw [List.getElem?_map, hb]
  rfl

theorem runsAll_snoc {st : AIState} {l : List (Nat × InstData)} {m m' : Nat} {p : Nat × InstData} {args : List Word}
    (h : RunsAll st l m m') (hr : Runs st p args) :
    RunsAll st (l ++ [p]) m (growAll m' (memRanges p.2.opcode.toNat args)) := by
  induction h with
  | nil m => exact .cons hr (.nil _)
  | cons h1 _ ih => exact .cons h1 (ih)

/-- At most `d.stackIo.1` operands are recorded. -/
def FewIn (base : List InstData) (st : AIState) : Prop :=
  ∀ i d, base[i]? = some d → (st.inputs i).length ≤ d.stackIo.1

theorem recStep_few : RecStep fun d l _ => l.length ≤ d.stackIo.1 := by
  intro code limit i st d d0 a h1 h2 h
  show _ ≤ d0.stackIo.1
  unfold interpInst
  split
  · exact h
  · dsimp only
    obtain ⟨st2, hst, hin⟩ : ∃ st2 : AIState, (if 0 < d.stackIo.1 then
        { st with inputs := fun k => if k = i then (a.take d.stackIo.1).reverse else st.inputs k }
      else st) = st2 ∧ (st2.inputs i).length ≤ d0.stackIo.1 := by
      refine ⟨_, rfl, ?_⟩
      split
      · show (if i = i then _ else _ : List AbsValue).length ≤ _
        rw [if_pos rfl, List.length_reverse, List.length_take, h2]
        omega
      · exact h
    rw [hst]
    have hsnap := (interpOp_snapshots code limit i st2 d a).1
    split
    · rw [hsnap]; exact hin
    · dsimp only
      split
      · dsimp only; rw [hsnap]; exact hin
      · rw [hsnap]; exact hin

theorem analyzeFlow_few {code : Code} {limit : Nat} {p : Prog} (wf : FlowWf code p.insts) :
    FewIn p.insts (analyzeFlow code limit p).2 :=
  analyzeFlow_rec (limit := limit) recStep_few wf (fun _ => Nat.zero_le _)

/-- The opcodes that read or write memory, or read its size. -/
def memOp (o : UInt8) : Bool :=
  [0x20, 0x37, 0x39, 0x3c, 0x3e, 0x51, 0x52, 0x53, 0x59, 0x5e, 0xa0, 0xa1, 0xa2, 0xa3, 0xa4, 0xf0, 0xf1, 0xf2, 0xf3,
    0xf4, 0xf5, 0xfa, 0xfd].contains o.toNat

/-- No result of an instruction that uses memory is recorded as constant. -/
def NoMemOut (base : List InstData) (st : AIState) : Prop :=
  ∀ i d, base[i]? = some d → memOp d.opcode = true → st.constOutput i = none

theorem memOp_fold : ∀ o : UInt8, memOp o = true → (∀ l, constFoldGas o l = none) ∧
    ¬ (0x5f ≤ o.toNat ∧ o.toNat ≤ 0x7f) ∧ o.toNat ≠ 0x50 ∧ ¬ (0x80 ≤ o.toNat ∧ o.toNat ≤ 0x8f) ∧
    ¬ (0x90 ≤ o.toNat ∧ o.toNat ≤ 0x9f) ∧ o.toNat ≠ 0xe6 ∧ o.toNat ≠ 0xe7 ∧ o.toNat ≠ 0xe8 := by
  intro o ho
  have hb : ∀ o : UInt8, memOp o = true → (o == op.CODESIZE || o == op.PC) = false ∧
      (o == op.ISZERO || o == op.NOT) = false ∧ (o == op.CLZ) = false ∧ (o == op.ADD || o == op.SUB) = false ∧
      (o == op.MUL || o == op.DIV || o == op.SDIV || o == op.MOD || o == op.SMOD) = false ∧
      (o == op.ADDMOD || o == op.MULMOD) = false ∧ (o == op.SIGNEXTEND) = false ∧
      (o == op.LT || o == op.GT || o == op.SLT || o == op.SGT || o == op.EQ) = false ∧
      (o == op.AND || o == op.OR || o == op.XOR) = false ∧
      (o == op.BYTE || o == op.SHL || o == op.SHR || o == op.SAR) = false ∧ (o == op.EXP) = false := by decide +kernel
  have hc : ∀ o : UInt8, memOp o = true →
      ¬ (0x5f ≤ o.toNat ∧ o.toNat ≤ 0x7f) ∧ o.toNat ≠ 0x50 ∧ ¬ (0x80 ≤ o.toNat ∧ o.toNat ≤ 0x8f) ∧
      ¬ (0x90 ≤ o.toNat ∧ o.toNat ≤ 0x9f) ∧ o.toNat ≠ 0xe6 ∧ o.toNat ≠ 0xe7 ∧ o.toNat ≠ 0xe8 := by decide +kernel
  refine ⟨fun l => ?_, hc o ho⟩
  obtain ⟨b1, b2, b3, b4, b5, b6, b7, b8, b9, b10, b11⟩ := hb o ho
  unfold constFoldGas
  simp only [b1, b2, b3, b4, b5, b6, b7, b8, b9, b10, b11, Bool.false_eq_true, if_false]

theorem recStep_mem : RecStep fun d _ o => memOp d.opcode = true → o.bind AbsValue.asConst = none := by
  intro code limit i st d d0 a h1 h2 h ho
  replace h := h ho
  rw [h1] at ho
  obtain ⟨hg, c1, c2, c3, c4, c5, c6, c7⟩ := memOp_fold d.opcode ho
  unfold interpInst
  split
  · exact h
  · dsimp only
    obtain ⟨st2, hst, hin⟩ : ∃ st2 : AIState, (if 0 < d.stackIo.1 then
        { st with inputs := fun k => if k = i then (a.take d.stackIo.1).reverse else st.inputs k }
      else st) = st2 ∧ (st2.outputs i).bind AbsValue.asConst = none := by
      refine ⟨_, rfl, ?_⟩
      split <;> exact h
    rw [hst]
    have htf : tryFold code limit st2 d d.stackIo.1 d.stackIo.2 a = (none, st2) := by
      unfold tryFold
      dsimp only
      split
      · rw [hg]
      · rfl
    have hop : interpOp code limit st2 i d a = if a.length < d.stackIo.1 then (none, st2) else
        (some (List.replicate d.stackIo.2 .top ++ a.drop d.stackIo.1), st2) := by
      unfold interpOp
      dsimp only
      rw [if_neg c1, if_neg c2, if_neg c3, if_neg c4, if_neg c5, if_neg c6, if_neg c7, htf]
    rw [hop]
    by_cases hl : a.length < d.stackIo.1
    · rw [if_pos hl]
      exact hin
    · rw [if_neg hl]
      dsimp only
      split
      · rename_i hout
        show ((if i = i then _ else _ : Option AbsValue)).bind _ = none
        rw [if_pos rfl]
        obtain ⟨n, hn⟩ : ∃ n, d.stackIo.2 = n + 1 := ⟨d.stackIo.2 - 1, by omega⟩
        rw [hn, List.replicate_succ]
        rfl
      · exact hin

theorem analyzeFlow_mem {code : Code} {limit : Nat} {p : Prog} (wf : FlowWf code p.insts) :
    NoMemOut p.insts (analyzeFlow code limit p).2 :=
  analyzeFlow_rec (limit := limit) recStep_mem wf (fun _ _ => rfl)

/-- What the theorems about memory need besides `GoodC`. -/
structure GoodM (base : List InstData) (C : Compiled) : Prop where
  few : FewIn base C.ai
  noOut : NoMemOut base C.ai

theorem goodM_of {g : UInt8 → BitVec 16} {spec : SpecId} {limit : Nat} {bytes : List UInt8} {o : WOpts}
    {C : Compiled} (hC : compileBytes o g spec limit bytes = some C) (hlen : bytes.length ≤ 2 ^ 31) :
    GoodM (parse g spec bytes).toProg.insts C := by
  have hwf := flowWf_parse g spec bytes hlen
  have h5 : FewIn (parse g spec bytes).toProg.insts (analyzeBytes g spec limit bytes).2 := by
    unfold analyzeBytes
    exact analyzeFlow_few (limit := limit) hwf
  have h7 : NoMemOut (parse g spec bytes).toProg.insts (analyzeBytes g spec limit bytes).2 := by
    unfold analyzeBytes
    exact analyzeFlow_mem (limit := limit) hwf
  unfold compileBytes at hC
  revert hC h5 h7
  generalize analyzeBytes g spec limit bytes = r
  intro hC h5 h7
  obtain ⟨bs, hb, rfl⟩ := Option.map_eq_some_iff.1 hC
  exact ⟨h5, h7⟩

section path
variable {base : List InstData} {ok : Nat → List Word → Prop} {o : WOpts} {C : Compiled} (G : GoodC base ok o C)
  (M : GoodM base C)
include G M

/-- An executed instruction runs as the analyses assume. -/
theorem GoodC.runs {i : Nat} {c : List Word} {d : InstData} (hr : Reach C.code base ok i c)
    (hd : C.prog.insts[i]? = some d) (hoff : (d.flags.disabled || d.flags.unknown) = false)
    (hl : d.stackIo.1 ≤ c.length) (ha : Affordable d.opcode.toNat (c.take d.stackIo.1)) :
    Runs C.ai (i, d) (c.take d.stackIo.1) := by
  refine ⟨hoff, fun k w hk => ?_, ha⟩
  obtain ⟨d0, h0, he⟩ := G.sound.ev.back hd
  have hlt : k < d.stackIo.1 := by
    have := M.few i d0 h0
    rw [he.io]
    rcases Nat.lt_or_ge k d0.stackIo.1 with h | h
    · exact h
    · exfalso
      have hnone : C.ai.constOperand i k = none := by
        unfold AIState.constOperand
        rw [List.getElem?_eq_none (by rw [List.length_reverse]; omega)]
        rfl
      rw [hnone] at hk
      cases hk
  rw [List.getElem?_take_of_lt hlt]
  exact snapAt_const (G.snapAt hr hd hl) hl k w hlt hk

end path

/-- The block an execution is in, with the memory sizes at its start and now. -/
structure InBlock (C : Compiled) (i n : Nat) (b : Nat) (blk : Nat × Nat) (m0 : Nat) : Prop where
  get : C.prog.blocks[b]? = some blk
  le : blk.1 ≤ i
  lt : i < blk.2
  path : MemPath C.ai C.prog.memBlocks b m0
  runs : RunsAll C.ai (C.prog.slice blk.1 (i - blk.1)) m0 n

theorem Spec.MemRun.reach {code : Code} {insts : List InstData} {wr : Nat → Nat → List Word → List UInt8 → List UInt8}
    {ok : Nat → List Word → Prop} {k i : Nat} {c : List Word} {m : List UInt8} {ld : List (Nat × Word)}
    {tr : List (Nat × List Word)} (h : MemRun code insts wr ok k i c m ld tr) : Reach code insts ok i c := by
  induction h with
  | start h => exact .start h
  | step _ _ hs _ _ hok ih => exact .step ih hs hok

section blocks
variable {base : List InstData} {ok : Nat → List Word → Prop} {o : WOpts} {C : Compiled} (G : GoodC base ok o C)
  (M : GoodM base C)
include G

theorem GoodC.inBlock_start (hok : ok 0 []) : ∃ blk, InBlock C 0 0 0 blk 0 ∧ blk.1 = 0 := by
  have hr0 : Reach C.code base ok 0 [] := .start hok
  obtain ⟨blk, hb, e⟩ := C.prog.leader_start (G.sound.live 0 [] hr0) (by simp [Prog.isLeader])
  obtain ⟨k, hlt, rfl⟩ := List.getElem_of_mem hb
  have hrange := C.prog.blocks_ok.range _ hb
  have hk0 : k = 0 := by
    rcases Nat.eq_zero_or_pos k with h0 | h0
    · exact h0
    · have h00 : 0 < C.prog.blocks.length := by omega
      have := C.prog.blocks_lt (List.getElem?_eq_getElem h00) (List.getElem?_eq_getElem hlt) h0
      have := C.prog.blocks_ok.range _ (List.getElem_mem h00)
      omega
  subst hk0
  refine ⟨_, ⟨List.getElem?_eq_getElem hlt, by omega, by omega, .start, ?_⟩, e⟩
  rw [e]
  exact .nil 0

include M

/-- One step: inside the block, or to the start of another. -/
theorem GoodC.inBlock_step {i i' n b m0 : Nat} {blk : Nat × Nat} {c c' : List Word} {d : InstData}
    (h : InBlock C i n b blk m0) (hr : Reach C.code base ok i c) (hd : C.prog.insts[i]? = some d)
    (hs : Step C.code base i c i' c') (hok : ok i' c') (ha : Affordable d.opcode.toNat (c.take d.stackIo.1)) :
    (i' = i + 1 ∧ i' < blk.2 ∧
        InBlock C i' (growAll n (memRanges d.opcode.toNat (c.take d.stackIo.1))) b blk m0) ∨
      ∃ b' blk', blk'.1 = i' ∧
        InBlock C i' (growAll n (memRanges d.opcode.toNat (c.take d.stackIo.1))) b' blk'
          (growAll n (memRanges d.opcode.toNat (c.take d.stackIo.1))) := by
  obtain ⟨d1, hd1, hlive⟩ := G.sound.live i c hr
  rw [hd] at hd1; cases hd1
  obtain ⟨hh, hio, hstep⟩ := step_effect G.wf G.sound.ev hs hd
  have hl : d.stackIo.1 ≤ c.length := (step_len hio hstep).1
  have hruns := runsAll_snoc h.runs (G.runs M hr hd (not_halts_off hh) hl ha)
  have hsl : C.prog.slice blk.1 (i + 1 - blk.1) = C.prog.slice blk.1 (i - blk.1) ++ [(i, d)] := by
    have := h.le
    have := slice_succ (p := C.prog) (s := blk.1) (n := i - blk.1) (d := d)
      (by rw [show blk.1 + (i - blk.1) = i by omega]; exact hd)
    rw [show i - blk.1 + 1 = i + 1 - blk.1 by omega, show blk.1 + (i - blk.1) = i by omega] at this
    exact this
  rw [← hsl] at hruns
  have hlt := h.lt
  have hle := h.le
  rcases Nat.lt_or_ge (i + 1) blk.2 with hin | hout
  · left
    have hnj : d.isJump ≠ true := by
      intro hj
      have h1 := live_not_leader hd hlive hj
      rw [C.prog.blocks_ok.inside blk (List.mem_of_getElem? h.get) (i + 1) (by omega) hin] at h1
      simp at h1
    have e : i' = i + 1 := by
      cases leaves_of_step G.wf G.sound G.flagged hr hs hd with
      | falls h1 _ => exact h1
      | jumps _ h1 _ _ => exact absurd h1 hnj
      | next h1 _ _ _ _ _ => exact h1
    subst e
    exact ⟨rfl, hin, h.get, by omega, hin, h.path, hruns⟩
  · right
    have hi : i + 1 = blk.2 := by omega
    obtain ⟨s, blk', hs', e, hedge⟩ := mem_edge G.wf G.sound G.flagged h.get hi hr hs hok
    have hrange' := C.prog.blocks_ok.range blk' (List.mem_of_getElem? hs')
    refine ⟨s, blk', e, hs', by omega, by omega, ?_, ?_⟩
    · refine .edge h.path (memBlocks_get h.get) ?_ ?_
      · show RunsAll _ (C.prog.blockInsts blk) _ _
        unfold Prog.blockInsts
        rw [← hi]
        exact hruns
      · rcases hedge with q | ⟨q1, q2⟩
        · exact .inl q
        · exact .inr ⟨q1, _, memBlocks_get hs', q2⟩
    · rw [e, Nat.sub_self]
      exact .nil _

end blocks

end Verif
