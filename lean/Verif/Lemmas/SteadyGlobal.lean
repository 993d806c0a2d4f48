import Verif.Lemmas.SteadyLocal
/-!
# The global pass finds again what the local pass found
-/

namespace Verif
open Spec

theorem evolves_branching {d d' : InstData} (h : EvolvesInst d d') : d'.isBranching = d.isBranching := by
  cases hj : d.isJump with
  | true =>
    unfold InstData.isBranching
    rw [h.isJump, hj]; rfl
  | false =>
    have ho : (d.opcode == op.JUMP) = false := by
      unfold InstData.isJump at hj
      exact (Bool.or_eq_false_iff.1 hj).1
    unfold InstData.isBranching InstData.isDiverging
    rw [h.isJump, h.op, h.dis, h.unk, ho]
    rfl

/-- An instruction inside a block. -/
theorem inner_std {code : Code} {base : List InstData} {p : Prog} (wf : FlowWf code base) (ha : Anch p)
    (hev : Evolves base p.insts) {b : Nat × Nat} (hb : b ∈ p.blocks) {j : Nat} (h1 : b.1 ≤ j) (h2 : j + 1 < b.2) :
    ∃ d, p.insts[j]? = some d ∧ d.flags.deadCode = false ∧ StdIo d ∧ d.isJump = false := by
  obtain ⟨d, hd, hl⟩ := ha.block_live hb h1 (by omega : j < b.2)
  have hbr := ha.inner_fall hb h1 h2 hd
  unfold InstData.isBranching at hbr
  rw [Bool.or_eq_false_iff] at hbr
  have hdiv := hbr.2
  unfold InstData.isDiverging at hdiv
  simp only [Bool.or_eq_false_iff] at hdiv
  obtain ⟨d0, hd0, he⟩ := hev.back hd
  have hio := wf.io j d0 hd0 (by rw [← he.dis, ← he.unk, hdiv.1.1.2, hdiv.1.2]; rfl)
  refine ⟨d, hd, hl, ?_, hbr.1⟩
  rw [← he.io, ← he.op] at hio
  exact stdIo_of hio

theorem jump_pops {code : Code} {base : List InstData} {p : Prog} (wf : FlowWf code base) (S : Shut p)
    (hev : Evolves base p.insts) {i : Nat} {d : InstData} (hd : p.insts[i]? = some d) (hj : d.isJump = true) :
    0 < d.stackIo.1 := by
  obtain ⟨d0, hd0, he⟩ := hev.back hd
  obtain ⟨o1, o2⟩ := S.on i d hd (.inr hj)
  have hio := wf.io i d0 hd0 (by rw [← he.dis, ← he.unk, o1, o2]; rfl)
  rw [← he.io, ← he.op] at hio
  rcases jump_cases hj with h | h
  · rw [(jump_io hio).1 h]; decide
  · rw [(jump_io hio).2 h]; decide

section
variable {code : Code} {limit : Nat} {base : List InstData} {p q : Prog} {loc : AIState} {x : Nat × JumpRes}
  {b : Nat × Nat} {d : InstData} {t : Nat} {st0 : AIState}

theorem LocRes.lt (r : LocRes code limit p loc x b d t st0) : b.1 ≤ x.1 := by
  have := (p.blocks_ok.range b r.block).2.1
  have := r.last
  omega

theorem blockInsts_get {p : Prog} {b : Nat × Nat} {i : Nat} {d : InstData} (h1 : b.1 ≤ i) (h2 : i < b.2)
    (hd : p.insts[i]? = some d) : p.blockInsts b = p.slice b.1 (i - b.1) ++ (i, d) :: p.slice (i + 1) (b.2 - i - 1) := by
  unfold Prog.blockInsts
  have := slice_split (p := p) (s := b.1) (n := b.2 - b.1) (k := i - b.1) (d := d)
    (by rw [show b.1 + (i - b.1) = i by omega]; exact hd) (by omega)
  rw [this, show b.1 + (i - b.1) = i by omega, show b.2 - b.1 - (i - b.1) - 1 = b.2 - i - 1 by omega]

theorem slice_other {p : Prog} {s n i : Nat} (h : i < s ∨ s + n ≤ i) : ∀ y ∈ p.slice s n, y.1 ≠ i := by
  intro y hy
  have := mem_slice hy
  omega

/-- A local resolution with unknown condition comes from a constant. -/
theorem LocRes.const (wf : FlowWf code base) (S : Shut p) (ha : Anch p) (hev : Evolves base p.insts)
    (r : LocRes code limit p loc x b d t st0) (hc : x.2.cond = .unknown) : ∃ w L,
      (interpBlock code limit (p.slice b.1 (x.1 - b.1)) st0 (localEntry p b)).1 = some L ∧
      L.head? = some (.const w) ∧ code.target w = some t ∧ (loc.inputs x.1).getLast? = some (.const w) ∧
      localCond loc x.1 d = .unknown := by
  have hlt := r.lt
  have hlast := r.last
  obtain ⟨d1, hd1, hl⟩ := ha.block_live r.block hlt (by omega)
  rw [r.get] at hd1; cases hd1
  have hpos := jump_pops wf S hev r.get r.jump
  have hsnap := r.snap
  have hran := r.ran
  rw [blockInsts_get hlt (by omega) r.get] at hsnap hran
  rcases interpBlock_record (code := code) (limit := limit) (st := st0) (a := localEntry p b)
    (slice_other (p := p) (s := b.1) (n := x.1 - b.1) (i := x.1) (by omega))
    (slice_other (p := p) (s := x.1 + 1) (n := b.2 - x.1 - 1) (i := x.1) (by omega)) hl hpos with ⟨h1, _⟩ | ⟨L, h1, h2⟩
  · rw [interpBlock_none_append h1] at hran
    exact absurd h1 hran
  · rw [h2] at hsnap
    have hlastv : (loc.inputs x.1).getLast? = L.head? := by rw [hsnap, take_reverse_last hpos]
    have hLL : StackR L L := by
      refine (pairR_slice (p := p) (q := p) _ _ fun j g1 g2 => ?_).run rfl (StackR.tops _ (localEntry p b)) h1 h1
      obtain ⟨e, h3, h4, h5, _⟩ := inner_std wf ha hev r.block (j := j) (by omega) (by omega)
      exact ⟨e, e, h3, h3, h4, h4, h5, rfl, rfl, rfl⟩
    have hres := r.res
    have hone := r.one
    rcases resolveJump_cases code loc x.1 d with ⟨_, _, h3⟩ | ⟨v, h3, h4, h5⟩ | ⟨_, h3⟩
    · rw [hres, h3] at hc; cases hc
    · rw [hres] at hone hc
      rw [h4] at hone
      have hv : L[0]? = some v := by rw [← List.head?_eq_getElem?, ← hlastv]; exact h3
      rcases hLL 0 v hv with e | ⟨w, e, _⟩
      · subst e; cases hone
      · subst e
        refine ⟨w, L, h1, by rw [← hlastv]; exact h3, ?_, h3, ?_⟩
        · unfold resolveOperand at hone
          dsimp only at hone
          cases hw : code.target w with
          | none => rw [hw] at hone; cases hone
          | some t' => rw [hw] at hone; cases hone; rfl
        · unfold localCond
          by_cases ho : d.opcode = op.JUMPI
          · rw [if_neg (by simpa using ho)]
            obtain ⟨u, hu, hcu⟩ := h5 hc ho
            rw [hu]
            cases u with
            | top => rfl
            | constSet s => rfl
            | const z =>
              exfalso
              unfold resolveCond AbsValue.constList at hcu
              by_cases hz : z = 0#256
              · subst hz; simp at hcu
              · simp [hz] at hcu
          · rw [if_pos (by simpa using ho)]
    · rw [hres, h3] at hone; cases hone

/-- The block of the jump in a later program starts no later. -/
theorem LocRes.wider (R : CfgFresh p) (ha : Anch p) (ha' : Anch q) (hev : Evolves p.insts q.insts)
    (r : LocRes code limit p loc x b d t st0) {c : Nat × Nat} (hc : c ∈ q.blocks) (h1 : c.1 ≤ x.1) : c.1 ≤ b.1 := by
  have hlt := r.lt
  have hlast := r.last
  rcases Nat.lt_or_ge b.1 c.1 with hx | hx
  · exfalso
    obtain ⟨d1, hd1, hl⟩ := ha.block_live r.block hlt (by omega)
    rw [r.get] at hd1; cases hd1
    have hdyn : p.hasDyn = true := by
      rw [R.dyn]
      exact hasDyn_iff.2 ⟨_, d, r.get, r.jump, r.raw, hl⟩
    have hno := p.blocks_ok.inside b r.block c.1 hx (by omega)
    have hyes : p.isLeader c.1 = true := by
      rcases leader_cases (ha'.start hc) with h | ⟨e', g1, g2⟩ | ⟨h0, e', g1, g2, g3⟩
      · omega
      · obtain ⟨e, g3, g4⟩ := hev.back g1
        refine reachable_leader g3 ?_
        unfold InstData.isReachableJumpdest InstData.isJumpdest at g2 ⊢
        rw [Bool.and_eq_true, g4.op] at g2
        rw [g2.1, hdyn]; rfl
      · obtain ⟨e, g4, g5⟩ := hev.back g1
        refine leader_after h0 g4 ?_ (by rw [← evolves_branching g5]; exact g3)
        cases hdd : e.flags.deadCode with
        | false => rfl
        | true => rw [g5.dead hdd] at g2; cases g2
    rw [hno] at hyes; cases hyes
  · exact hx

/-- The operand of jump `i` is the constant `w`, unknown, or not recorded. -/
def Again (i : Nat) (w : Word) (st : AIState) : Prop :=
  (st.inputs i).getLast? = none ∨ (st.inputs i).getLast? = some .top ∨ (st.inputs i).getLast? = some (.const w)

/-- Interpreting a block of a later program finds the constant of the local resolution again. -/
theorem LocRes.again_block (wf : FlowWf code base) (R : CfgFresh p) (ha : Anch p) (hev : Evolves base p.insts)
    (S' : Shut q) (ha' : Anch q) (hev' : Evolves p.insts q.insts) (r : LocRes code limit p loc x b d t st0) {w : Word}
    {L : List AbsValue} (hL : (interpBlock code limit (p.slice b.1 (x.1 - b.1)) st0 (localEntry p b)).1 = some L)
    (hw : L.head? = some (.const w)) {c : Nat × Nat} (hc : c ∈ q.blocks) {st : AIState} (A : List AbsValue)
    (h : Again x.1 w st) : Again x.1 w (interpBlock code limit (q.blockInsts c) st A).2 := by
  have hcr := (q.blocks_ok.range c hc).2.1
  by_cases hin : c.1 ≤ x.1 ∧ x.1 < c.2
  · have hwide := r.wider R ha ha' hev' hc hin.1
    have hlt := r.lt
    have hlast := r.last
    obtain ⟨d', hd', hl'⟩ := ha'.block_live hc hin.1 hin.2
    obtain ⟨d1, hd1, he⟩ := hev'.back hd'
    rw [r.get] at hd1; cases hd1
    have hpos := jump_pops wf S' (hev.trans hev') hd' (he.isJump.trans r.jump)
    rw [blockInsts_get hin.1 hin.2 hd']
    rcases interpBlock_record (code := code) (limit := limit) (st := st) (a := A)
      (slice_other (p := q) (s := c.1) (n := x.1 - c.1) (i := x.1) (by omega))
      (slice_other (p := q) (s := x.1 + 1) (n := c.2 - x.1 - 1) (i := x.1) (by omega)) hl' hpos with ⟨_, h2⟩ | ⟨A', h1, h2⟩
    · unfold Again
      rw [h2]; exact h
    · unfold Again
      rw [h2, take_reverse_last hpos]
      -- split the run at the start of the local block
      have hsplit : q.slice c.1 (x.1 - c.1) = q.slice c.1 (b.1 - c.1) ++ q.slice b.1 (x.1 - b.1) := by
        unfold Prog.slice
        rw [← List.filterMap_append]
        congr 1
        have := List.range'_append (s := c.1) (m := b.1 - c.1) (n := x.1 - b.1) (step := 1)
        rw [Nat.one_mul, show c.1 + (b.1 - c.1) = b.1 by omega,
          show b.1 - c.1 + (x.1 - b.1) = x.1 - c.1 by omega] at this
        exact this.symm
      rw [hsplit] at h1
      cases hf : (interpBlock code limit (q.slice c.1 (b.1 - c.1)) st A).1 with
      | none => rw [interpBlock_none_append hf, hf] at h1; cases h1
      | some A1 =>
        rw [interpBlock_append hf] at h1
        have hR : StackR L A' := by
          refine (pairR_slice (p := p) (q := q) _ _ fun j g1 g2 => ?_).run rfl (StackR.tops _ A1) hL h1
          obtain ⟨e, h3, h4, h5, h6⟩ := inner_std wf ha hev r.block (j := j) (by omega) (by omega)
          obtain ⟨e', h7, h8⟩ := ha'.block_live hc (j := j) (by omega) (by omega)
          have hev1 := hev'.inst j e e' h3 h7
          exact ⟨e, e', h3, h7, h4, h8, h5, hev1.op, hev1.io, hev1.data h6⟩
        rw [List.head?_eq_getElem?] at hw
        rcases hR 0 _ hw with e | ⟨w', e, h3⟩
        · cases e
        · cases e
          rw [List.head?_eq_getElem?]
          cases ha0 : A'[0]? with
          | none => exact .inl rfl
          | some a =>
            rcases h3 a ha0 with e | e
            · exact .inr (.inr (by rw [e]))
            · exact .inr (.inl (by rw [e]))
  · unfold Again
    have : (interpBlock code limit (q.blockInsts c) st A).2.inputs x.1 = st.inputs x.1 := by
      refine (interpBlock_other fun y hy => ?_).1
      have := (blockInsts_idx hy)
      have := this.2.2 (by omega)
      omega
    rw [this]; exact h

end

/-! ## The worklist loop -/

theorem fixStep_keeps {code : Code} {limit : Nat} {p : Prog} {P : AIState → Prop}
    (hP : ∀ c ∈ p.blocks, ∀ st A, P st → P (interpBlock code limit (p.blockInsts c) st A).2) {b : Nat} {f : FixState}
    (h : P f.ai) : P (fixStep code limit p p.blocks b f).ai := by
  unfold fixStep
  split
  · rename_i a blk h1 h2
    have := hP blk (List.mem_of_getElem? h2) f.ai a h
    dsimp only
    split
    · exact this
    · exact this
  · exact h

theorem fixLoop_keeps {code : Code} {limit : Nat} {p : Prog} {P : AIState → Prop}
    (hP : ∀ c ∈ p.blocks, ∀ st A, P st → P (interpBlock code limit (p.blockInsts c) st A).2) (fuel : Nat) :
    ∀ f : FixState, P f.ai → P (fixLoop code limit p p.blocks fuel f).1.ai := by
  induction fuel with
  | zero =>
    intro f h
    unfold fixLoop
    split <;> exact h
  | succ n ih =>
    intro f h
    unfold fixLoop
    split
    · exact h
    · exact ih _ (fixStep_keeps hP h)

/-- The snapshots the jumps are resolved with. -/
def fixAi (code : Code) (limit : Nat) (p : Prog) (loc st : AIState) : AIState :=
  if (runFixpoint code limit p p.blocks st).2 then (runFixpoint code limit p p.blocks st).1.ai
  else restore (runFixpoint code limit p p.blocks st).1.ai loc fun _ => true

theorem fixAi_again {code : Code} {limit : Nat} {p : Prog} {loc : AIState} {i : Nat} {w : Word}
    (hP : ∀ c ∈ p.blocks, ∀ st A, Again i w st → Again i w (interpBlock code limit (p.blockInsts c) st A).2)
    (h : Again i w loc) : Again i w (fixAi code limit p loc loc) := by
  unfold fixAi
  split
  · exact fixLoop_keeps hP _ _ h
  · exact h

/-- The resolutions of all considered jumps. -/
def fixTargets (code : Code) (limit : Nat) (p : Prog) (loc st : AIState) : List (Nat × JumpRes) :=
  p.jumpInsts.map fun x => (x.1, resolveJump code (fixAi code limit p loc st) x.1 x.2)

theorem runAbs_fst (code : Code) (limit : Nat) (p : Prog) (loc st : AIState) :
    (runAbstractInterp code limit p loc st).1 = fixTargets code limit p loc st ∨
    ∃ sus, (runAbstractInterp code limit p loc st).1 =
      (fixTargets code limit p loc st).map (invalidateOne loc p p.blocks sus) := by
  unfold runAbstractInterp fixTargets fixAi
  dsimp only
  generalize (if (runFixpoint code limit p p.blocks st).2 = true then (runFixpoint code limit p p.blocks st).1.ai
    else restore (runFixpoint code limit p p.blocks st).1.ai loc fun _ => true) = s1
  split
  · exact .inr ⟨_, rfl⟩
  · exact .inl rfl

/-- The resolutions of the global pass. -/
theorem runAbs_mem {code : Code} {limit : Nat} {p : Prog} {loc st : AIState} {y : Nat × JumpRes}
    (h : y ∈ (runAbstractInterp code limit p loc st).1) : ∃ d, (y.1, d) ∈ p.jumpInsts ∧
      (y.2 = resolveJump code (fixAi code limit p loc st) y.1 d ∨
        (y.2 = { target := .resolved [y.1 + 1], cond := .alwaysFalse } ∧ localCond loc y.1 d = .alwaysFalse) ∨
        (y.2 = { target := .top, cond := localCond loc y.1 d }) ∨
        ((resolveJump code (fixAi code limit p loc st) y.1 d).isResolved = false ∧
          y.2 = { resolveJump code (fixAi code limit p loc st) y.1 d with cond := localCond loc y.1 d })) := by
  rcases runAbs_fst code limit p loc st with e | ⟨sus, e⟩
  rotate_left
  · rw [e] at h
    obtain ⟨y0, h0, rfl⟩ := List.mem_map.1 h
    obtain ⟨x, hx, rfl⟩ := List.mem_map.1 h0
    obtain ⟨g1, _⟩ := mem_jumpInsts hx
    unfold invalidateOne
    dsimp only
    rw [g1]
    refine ⟨x.2, ?_⟩
    have key : ∀ z : Nat × JumpRes, z.1 = x.1 →
        (z.2 = resolveJump code (fixAi code limit p loc st) x.1 x.2 ∨
        (z.2 = { target := .resolved [x.1 + 1], cond := .alwaysFalse } ∧ localCond loc x.1 x.2 = .alwaysFalse) ∨
        (z.2 = { target := .top, cond := localCond loc x.1 x.2 }) ∨
        ((resolveJump code (fixAi code limit p loc st) x.1 x.2).isResolved = false ∧
          z.2 = { resolveJump code (fixAi code limit p loc st) x.1 x.2 with cond := localCond loc x.1 x.2 })) →
        (z.1, x.2) ∈ p.jumpInsts ∧ (z.2 = resolveJump code (fixAi code limit p loc st) z.1 x.2 ∨
        (z.2 = { target := .resolved [z.1 + 1], cond := .alwaysFalse } ∧ localCond loc z.1 x.2 = .alwaysFalse) ∨
        (z.2 = { target := .top, cond := localCond loc z.1 x.2 }) ∨
        ((resolveJump code (fixAi code limit p loc st) z.1 x.2).isResolved = false ∧
          z.2 = { resolveJump code (fixAi code limit p loc st) z.1 x.2 with cond := localCond loc z.1 x.2 })) := by
      intro z e h
      rw [e]
      exact ⟨hx, h⟩
    split
    · rename_i b e hb he
      cases he
      split
      · split
        · rename_i hc
          exact key _ rfl (.inr (.inl ⟨by rw [hc], hc⟩))
        · split
          · exact key _ rfl (.inr (.inr (.inl rfl)))
          · rename_i hr
            exact key _ rfl (.inr (.inr (.inr ⟨by simpa using hr, rfl⟩)))
      · exact key _ rfl (.inl rfl)
    · exact key _ rfl (.inl rfl)
  · rw [e] at h
    obtain ⟨x, hx, rfl⟩ := List.mem_map.1 h
    exact ⟨x.2, hx, .inl rfl⟩

theorem runAbs_keys (code : Code) (limit : Nat) (p : Prog) (loc st : AIState) :
    (runAbstractInterp code limit p loc st).1.map (·.1) = p.jumpInsts.map (·.1) := by
  have h1 : ∀ bs sus (x : Nat × JumpRes), (invalidateOne loc p bs sus x).1 = x.1 := by
    intro bs sus x
    unfold invalidateOne
    split
    · dsimp only
      repeat' split
      all_goals rfl
    · rfl
  rcases runAbs_fst code limit p loc st with e | ⟨sus, e⟩
  · rw [e]
    unfold fixTargets
    simp only [List.map_map]
    rfl
  · rw [e]
    unfold fixTargets
    simp only [List.map_map]
    refine List.map_congr_left fun x _ => ?_
    simp [h1]

theorem slice_nodup (p : Prog) (s n : Nat) : ((p.slice s n).map (·.1)).Nodup := by
  have hsub : ((p.slice s n).map (·.1)).Sublist (List.range' s n) := by
    unfold Prog.slice
    generalize List.range' s n = l
    induction l with
    | nil => simp
    | cons a l ih =>
      rw [List.filterMap_cons]
      cases p.insts[a]? with
      | none => exact ih.cons a
      | some d => exact ih.cons_cons a
  exact hsub.nodup List.nodup_range'

theorem jumpInsts_nodup (p : Prog) : (p.jumpInsts.map (·.1)).Nodup := by
  unfold Prog.jumpInsts
  exact (List.filter_sublist.map _).nodup (slice_nodup p 0 p.insts.length)

end Verif
