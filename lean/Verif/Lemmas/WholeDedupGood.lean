import Verif.Lemmas.WholeDedupVirt
/-!
# The program before deduplication, with the constants of the blocks that replace its own, is compiled soundly
-/

namespace Verif
open Spec

/-- The recorded values at the counterparts. -/
def virtAi (s c : DState) : AIState :=
  { c.ai with
    inputs := fun i => c.ai.inputs (shiftIdx s.prog.blocks c.redirects i)
    outputs := fun i => c.ai.outputs (shiftIdx s.prog.blocks c.redirects i) }

/-- The targets of jumps to several targets at the counterparts. -/
def virtMulti (s c : DState) : List (Nat × List Nat) :=
  (List.range s.prog.insts.length).filterMap fun i =>
    (c.prog.multi.lookup (shiftIdx s.prog.blocks c.redirects i)).map fun l => (i, l)

/-- The program with the blocks of `s` and the jump targets of `c`. -/
def virtProg (s c : DState) : Prog := { s.prog with multi := virtMulti s c }

theorem lookup_filterMap {f : Nat → Option (List Nat)} : ∀ (l : List Nat) (i : Nat), i ∈ l →
    (l.filterMap fun i => (f i).map fun x => (i, x)).lookup i = f i
  | [], _, h => by simp at h
  | a :: l, i, h => by
    by_cases hia : i = a
    · subst hia
      rw [List.filterMap_cons]
      cases hf : f i with
      | some x => simp [List.lookup]
      | none =>
        dsimp only [Option.map_none]
        by_cases hm : i ∈ l
        · rw [lookup_filterMap l i hm, hf]
        · rw [List.lookup_eq_none_iff]
          intro p hp
          obtain ⟨j, hj, hp⟩ := List.mem_filterMap.1 hp
          obtain ⟨x, _, rfl⟩ := Option.map_eq_some_iff.1 hp
          simp only [bne_iff_ne, ne_eq]
          rintro rfl
          exact hm hj
    · have hm : i ∈ l := by simpa [hia] using h
      rw [List.filterMap_cons]
      cases hf : f a with
      | none => exact lookup_filterMap l i hm
      | some x =>
        dsimp only [Option.map_some]
        rw [List.lookup_cons]
        have : (i == a) = false := by simpa using hia
        rw [this]
        exact lookup_filterMap l i hm

theorem virtMulti_lookup {s c : DState} {i : Nat} (hi : i < s.prog.insts.length) :
    (virtMulti s c).lookup i = c.prog.multi.lookup (shiftIdx s.prog.blocks c.redirects i) :=
  lookup_filterMap (f := fun i => c.prog.multi.lookup (shiftIdx s.prog.blocks c.redirects i)) _ i (List.mem_range.2 hi)

theorem snapAt_of {st st' : AIState} {i j inp : Nat} {c : List Word} (h : SnapAt st i inp c)
    (he : st'.inputs j = st.inputs i) : SnapAt st' j inp c := by
  obtain ⟨a, h1, h2⟩ := h.snap
  exact ⟨a, by rw [he]; exact h1, h2⟩

section setup
variable {code : Code} {limit : Nat} {base : List InstData} {ok : Nat → List Word → Prop} {p1 : Prog} {loc : AIState}
  {s c : DState} (S : DSetup code limit base ok p1 loc s c)
include S

theorem DSetup.at {i : Nat} (hl : LiveAt s.prog.insts i) : ∃ b ∈ s.prog.blocks, ∃ b' ∈ c.prog.blocks,
    BlockRel code c.redirects s.prog b c.prog b' ∧ ∃ n, n < b.2 - b.1 ∧ i = b.1 + n ∧
      shiftIdx s.prog.blocks c.redirects i = b'.1 + n := by
  obtain ⟨b, hb, h1, h2⟩ := s.prog.blocks_ok.cover i (Nat.zero_le _) hl
  obtain ⟨b', hb', hr⟩ := S.block b hb
  refine ⟨b, hb, b', hb', hr, i - b.1, by omega, by omega, ?_⟩
  rw [shiftIdx_in hb h1 h2, S.start_eq hb hb' hr]

theorem DSetup.virt_snap : SnapOk code base ok (virtAi s c) := by
  intro i cc d hre hd hpos hlen
  obtain ⟨b, hb, b', hb', hr, n, hn, rfl, hsh⟩ := S.at (S.sound.live i cc hre)
  have hv : (virtAi s c).inputs (b.1 + n) = c.ai.inputs (b'.1 + n) := by
    show c.ai.inputs (shiftIdx _ _ _) = _
    rw [hsh]
  have hloc := S.loc_inputs hb hb' hr hn hre hd hpos hlen
  rcases S.own hb hb' hr n hn with rfl | h
  · rcases S.after.either (b'.1 + n) with h | h
    · exact snapAt_of hloc (hv.trans h.1)
    · exact snapAt_of (S.snap _ cc d hre hd hpos hlen) (hv.trans h.1)
  · exact snapAt_of hloc (hv.trans h.1)

theorem DSetup.virt_out : OutOk code base ok (virtAi s c) := by
  intro i cc i' cc' d v hre hst hd hpos hsw hv
  obtain ⟨b, hb, b', hb', hr, n, hn, rfl, hsh⟩ := S.at (S.sound.live i cc hre)
  have hv2 : c.ai.outputs (b'.1 + n) = some v := by
    rw [← hsh]; exact hv
  rcases S.own hb hb' hr n hn with rfl | h
  · rcases S.after.either (b'.1 + n) with h | h
    · exact S.loc_outputs hb hb' hr hn hre hst hd hpos hsw (h.2.symm.trans hv2)
    · exact S.out _ cc i' cc' d v hre hst hd hpos hsw (h.2.symm.trans hv2)
  · exact S.loc_outputs hb hb' hr hn hre hst hd hpos hsw (h.2.symm.trans hv2)

/-- The parsed instruction at the counterpart. -/
theorem DSetup.base_shift {i : Nat} {d : InstData} (hd : base[i]? = some d) :
    ∃ d', base[shiftIdx s.prog.blocks c.redirects i]? = some d' ∧ d'.opcode = d.opcode ∧ d'.stackIo = d.stackIo := by
  cases hf : s.prog.blocks.find? fun b => decide (b.1 ≤ i) && decide (i < b.2) with
  | none =>
    refine ⟨d, ?_, rfl, rfl⟩
    unfold shiftIdx
    rw [hf]
    exact hd
  | some b =>
    have hb := List.mem_of_find?_eq_some hf
    have hx := List.find?_some hf
    simp only [Bool.and_eq_true, decide_eq_true_eq] at hx
    obtain ⟨b', hb', hr⟩ := S.block b hb
    obtain ⟨x, y, g1, g2, g3, _, _, _, _, g4, _⟩ := S.pair hb hb' hr (n := i - b.1) (by omega)
    rw [show b.1 + (i - b.1) = i by omega] at g1
    obtain ⟨e, e1, e2⟩ := S.evc.back g2
    have hev := S.sound.ev.inst _ _ _ hd g1
    refine ⟨e, ?_, ?_, ?_⟩
    · rw [shiftIdx_in hb hx.1 hx.2, S.start_eq hb hb' hr]
      exact e1
    · rw [← e2.op, ← hev.op]; exact g3.opc.symm
    · rw [← e2.io, ← hev.io]; exact g4

theorem DSetup.virt_noswap : NoSwapOut base (virtAi s c) := by
  intro i d hd hsw
  obtain ⟨d', h1, h2, _⟩ := S.base_shift hd
  show c.ai.outputs _ = none
  rw [← h2] at hsw
  rcases S.after.either (shiftIdx s.prog.blocks c.redirects i) with h | h
  · rw [h.2]; exact S.noswap.2 _ d' h1 hsw
  · rw [h.2]; exact S.noswap.1 _ d' h1 hsw

theorem DSetup.virt_exp : ExpOut base (virtAi s c) := by
  intro i d hd hop hio hin hout
  obtain ⟨d', h1, h2, h3⟩ := S.base_shift hd
  rw [← h2] at hop
  rw [← h3] at hio
  have key : ∀ st : AIState, ExpOut base st → AgreesAt st c.ai (shiftIdx s.prog.blocks c.redirects i) →
      ((virtAi s c).constOperand i 1).isSome = true := by
    intro st hst h
    have e1 : (virtAi s c).inputs i = st.inputs (shiftIdx s.prog.blocks c.redirects i) := h.1
    have e2 : (virtAi s c).outputs i = st.outputs (shiftIdx s.prog.blocks c.redirects i) := h.2
    have := hst _ d' h1 hop hio (by rw [← e1]; exact hin)
    unfold AIState.constOperand AIState.constOutput at *
    rw [e1]
    rw [e2] at hout
    exact this hout
  rcases S.after.either (shiftIdx s.prog.blocks c.redirects i) with h | h
  · exact key loc S.exp.2 h
  · exact key s.ai S.exp.1 h

/-- The targets of a jump to several targets are among those of its counterpart. -/
theorem DSetup.virt_multi {i : Nat} {d : InstData} (hd : s.prog.insts[i]? = some d) (hl : d.flags.deadCode = false)
    (hj : d.isJump = true) (hm : d.flags.multiJump = true) {t : Nat} (ht : t ∈ (s.prog.multi.lookup i).getD []) :
    t ∈ ((virtProg s c).multi.lookup i).getD [] := by
  obtain ⟨b, hb, b', hb', hr, n, hn, rfl, hsh⟩ := S.at ⟨d, hd, hl⟩
  have hlen := S.len_eq hb hb' hr
  have hlast := S.steady.block_last hb (j := b.1 + n) (by omega) (by omega) hd
    (by unfold InstData.isBranching; rw [hj]; rfl)
  obtain ⟨x, x', g1, g2, g3, _⟩ := hr.term
  rw [← hlast, hd] at g1
  cases g1
  show t ∈ ((virtMulti s c).lookup _).getD []
  rw [virtMulti_lookup (List.getElem?_eq_some_iff.1 hd).1, hsh]
  have := g3.multi hj hm t (by rw [← hlast]; exact ht)
  rw [show b'.1 + n = b'.2 - 1 by omega]
  exact this

theorem DSetup.virt_sound : Sound code base ok (virtProg s c) := by
  refine ⟨S.sound.ev, S.sound.live, fun i cc d hre hd hj hh ha => ?_, fun i cc d hre hd hj hh ha => ?_⟩
  · have h1 := S.sound.next i cc d hre hd hj hh ha
    rw [← h1]
    obtain ⟨dl, hdl, hl⟩ := S.sound.live i cc hre
    have hd' : s.prog.insts[i]? = some d := hd
    rw [hd'] at hdl; cases hdl
    unfold Prog.compiledNext
    dsimp only
    cases hm : d.flags.multiJump with
    | false => simp
    | true =>
      obtain ⟨t, ht, he⟩ := (S.sound.says i cc d hre hd hj hh ha).multi hm
      have ht2 := S.virt_multi hd' hl hj hm ht
      simp only [he, if_true]
      have e1 : (some t).filter (fun t => ((s.prog.multi.lookup i).getD []).contains t) = some t := by
        rw [Option.filter_eq_some_iff]
        exact ⟨rfl, by simpa using ht⟩
      have e2 : (some t).filter (fun t => (((virtProg s c).multi.lookup i).getD []).contains t) = some t := by
        rw [Option.filter_eq_some_iff]
        exact ⟨rfl, by simpa using ht2⟩
      rw [e1, e2]
  · obtain ⟨h1, h2, h3⟩ := S.sound.says i cc d hre hd hj hh ha
    obtain ⟨dl, hdl, hl⟩ := S.sound.live i cc hre
    have hd' : s.prog.insts[i]? = some d := hd
    rw [hd'] at hdl; cases hdl
    refine ⟨fun hm => ?_, h2, h3⟩
    obtain ⟨t, ht, he⟩ := h1 hm
    exact ⟨t, S.virt_multi hd' hl hj hm ht, he⟩

theorem DSetup.virt_flagged : Flagged (virtProg s c) := by
  refine ⟨S.flagged.dyn, fun i d t dt hd ht hdt hjd => ?_⟩
  have hd' : s.prog.insts[i]? = some d := hd
  have hdt' : s.prog.insts[t]? = some dt := hdt
  obtain ⟨h1, h2, h3, h4⟩ := mem_targetsOf_iff.1 ht
  rcases h4 with ⟨h4, h5⟩ | h4
  · obtain ⟨b, hb, b', hb', hr, n, hn, rfl, hsh⟩ := S.at ⟨d, hd', h1⟩
    have hlen := S.len_eq hb hb' hr
    have hj : d.isJump = true := by
      unfold InstData.isStaticJump at h2
      rw [Bool.and_eq_true] at h2
      exact h2.1
    have hlast := S.steady.block_last hb (j := b.1 + n) (by omega) (by omega) hd'
      (by unfold InstData.isBranching; rw [hj]; rfl)
    obtain ⟨x, x', g1, g2, g3, _⟩ := hr.term
    rw [← hlast, hd'] at g1
    cases g1
    obtain ⟨y, y', q1, q2, _, _, q3, _⟩ := S.pair hb hb' hr hn
    have hl' : b'.2 - 1 = b'.1 + n := by omega
    rw [hl', q2] at g2
    cases g2
    have hm' : x'.flags.multiJump = true := by rw [(g3.jump hj).2.2.1]; exact h4
    have h5' : t ∈ ((virtMulti s c).lookup (b.1 + n)).getD [] := h5
    rw [virtMulti_lookup (List.getElem?_eq_some_iff.1 hd').1, hsh] at h5'
    obtain ⟨i0, d0, z1, z2, z3, z4⟩ := S.after.multi _ x' q2 q3 hm' t h5'
    obtain ⟨m1, m2, _⟩ := S.steady.multi i0 d0 z1 z2 z3
    exact S.flagged.reach i0 d0 t dt z1 (mem_targetsOf_iff.2 ⟨z2, m1, m2, .inl ⟨z3, z4⟩⟩) hdt' hjd
  · exact S.flagged.reach i d t dt hd' (mem_targetsOf_iff.2 ⟨h1, h2, h3, .inr h4⟩) hdt' hjd

variable {b b' : Nat × Nat} (hb : b ∈ s.prog.blocks) (hb' : b' ∈ c.prog.blocks)
  (hr : BlockRel code c.redirects s.prog b c.prog b')
include hb hb' hr

/-- To the code generator the counterpart looks like the block. -/
theorem DSetup.alike : Matched (CRel code (virtAi s c) c.ai b.1 b'.1 (b.2 - b.1)) ((virtProg s c).blockInsts b) (c.prog.blockInsts b') := by
  have hlen := S.len_eq hb hb' hr
  have hs := blockInsts_at hb
  have hc := blockInsts_at hb'
  show Matched _ (s.prog.blockInsts b) _
  refine matched_of_get (by rw [hs.1, hc.1, hlen]) fun k x y hx hy => ?_
  have hk : k < b.2 - b.1 := by rw [← hs.1]; exact (List.getElem?_eq_some_iff.1 hx).1
  obtain ⟨d, h1, h2⟩ := hs.2 k hk
  obtain ⟨d', h3, h4⟩ := hc.2 k (by omega)
  rw [hx] at h2; cases h2
  rw [hy] at h4; cases h4
  obtain ⟨e, e', g1, g2, g3, g4, g5, g6, g7, g8, g9, g10⟩ := S.pair hb hb' hr hk
  rw [h1] at g1; cases g1
  rw [h3] at g2; cases g2
  have hsh : shiftIdx s.prog.blocks c.redirects (b.1 + k) = b'.1 + k := by
    rw [shiftIdx_in hb (by omega) (by omega), S.start_eq hb hb' hr]
    omega
  have hop : d'.opcode = d.opcode := g3.opc.symm
  have hjump : d.isJump = true → d'.flags.staticJump = d.flags.staticJump ∧ d'.flags.invalidJump = d.flags.invalidJump ∧
      d'.flags.multiJump = d.flags.multiJump ∧ d'.hasConstJumpiCondition = d.hasConstJumpiCondition := by
    intro hj
    have hlast := S.steady.block_last hb (j := b.1 + k) (by omega) (by omega) h1
      (by unfold InstData.isBranching; rw [hj]; rfl)
    obtain ⟨x, x', q1, q2, q3, _⟩ := hr.term
    rw [← hlast, h1] at q1; cases q1
    rw [show b'.2 - 1 = b'.1 + k by omega, h3] at q2; cases q2
    exact q3.jump hj
  refine ⟨⟨k, hk, rfl, rfl⟩, hop, g8, g6, g7, by show d'.flags.noop = d.flags.noop; rw [g9, g10],
    fun hj => ⟨(hjump hj).1, (hjump hj).2.1, (hjump hj).2.2.1⟩, ?_, fun h => (g3.imm h).symm, ?_, ?_⟩
  · show d'.hasConstJumpiCondition = d.hasConstJumpiCondition
    by_cases hj : d.opcode = op.JUMPI
    · exact (hjump (by unfold InstData.isJump; rw [hj]; rfl)).2.2.2
    · unfold InstData.hasConstJumpiCondition
      rw [hop, show (d.opcode == op.JUMPI) = false by simpa using hj]
      rfl
  · show c.ai.inputs _ = c.ai.inputs (shiftIdx _ _ _)
    rw [hsh]
  · show c.ai.outputs _ = c.ai.outputs (shiftIdx _ _ _)
    rw [hsh]

end setup

section setup
variable {code : Code} {limit : Nat} {base : List InstData} {ok : Nat → List Word → Prop} {p1 : Prog} {loc : AIState}
  {s c : DState} (S : DSetup code limit base ok p1 loc s c)
include S

theorem DSetup.compiles {o : WOpts} {bs : List CBlock} (h : compileBlocks o code c.prog c.ai c.prog.blocks = some bs) :
    ∃ vs, compileBlocks o code (virtProg s c) (virtAi s c) (virtProg s c).blocks = some vs := by
  refine compileBlocks_each fun b hb => ?_
  have hb0 : b ∈ s.prog.blocks := hb
  obtain ⟨b', hb', hr⟩ := S.block b hb0
  obtain ⟨x', _, hx'⟩ := (compileBlocks_each_mem h).1 b' hb'
  obtain ⟨x, hx, _⟩ := matched_compile (S.alike hb0 hb' hr) hx'
  exact ⟨x, hx⟩

/-- The compiled program with the blocks of `s`. -/
theorem DSetup.good {o : WOpts} {vs : List CBlock} {spec : SpecId}
    (h : compileBlocks o code (virtProg s c) (virtAi s c) (virtProg s c).blocks = some vs) :
    GoodC base ok o { code, prog := virtProg s c, ai := virtAi s c, spec, blocks := vs } :=
  ⟨S.wf, S.virt_sound, S.virt_snap, S.virt_out, S.virt_flagged, S.virt_noswap, S.virt_exp,
    fun i d hd => by
      obtain ⟨e, e1, e2⟩ := S.sound.ev.back hd
      exact e2.wf (S.inst i e e1), h⟩

end setup

end Verif
