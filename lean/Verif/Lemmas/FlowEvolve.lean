import Verif.Model.Flow
/-!
# The control-flow analysis only touches jumps, reachability and dead-code flags
-/

namespace Verif

/-- An instruction before and after (parts of) the analysis. -/
structure EvolvesInst (d d' : InstData) : Prop where
  op : d'.opcode = d.opcode
  io : d'.stackIo = d.stackIo
  gas : d'.baseGas = d.baseGas
  dis : d'.flags.disabled = d.flags.disabled
  unk : d'.flags.unknown = d.flags.unknown
  dead : d.flags.deadCode = true → d'.flags.deadCode = true
  data : d.isJump = false → d'.data = d.data
  flags : d.isJump = false → { d'.flags with deadCode := false } = { d.flags with deadCode := false }
  noop : d'.flags.noop = d.flags.noop

theorem EvolvesInst.isJump {d d' : InstData} (h : EvolvesInst d d') : d'.isJump = d.isJump := by
  unfold InstData.isJump; rw [h.op]

theorem EvolvesInst.refl (d : InstData) : EvolvesInst d d := ⟨rfl, rfl, rfl, rfl, rfl, id, fun _ => rfl, fun _ => rfl, rfl⟩

theorem EvolvesInst.trans {a b c : InstData} (h : EvolvesInst a b) (h' : EvolvesInst b c) : EvolvesInst a c :=
  ⟨h'.op.trans h.op, h'.io.trans h.io, h'.gas.trans h.gas, h'.dis.trans h.dis, h'.unk.trans h.unk,
    fun x => h'.dead (h.dead x), fun x => (h'.data (h.isJump.trans x)).trans (h.data x),
    fun x => (h'.flags (h.isJump.trans x)).trans (h.flags x), h'.noop.trans h.noop⟩

/-- Instruction lists before and after. -/
structure Evolves (l l' : List InstData) : Prop where
  len : l'.length = l.length
  inst : ∀ (i : Nat) d d', l[i]? = some d → l'[i]? = some d' → EvolvesInst d d'

theorem Evolves.refl (l : List InstData) : Evolves l l :=
  ⟨rfl, fun i d d' h h' => by rw [h] at h'; cases h'; exact .refl _⟩

theorem Evolves.get {l l' : List InstData} (h : Evolves l l') {i : Nat} {d : InstData}
    (hd : l[i]? = some d) : ∃ d', l'[i]? = some d' ∧ EvolvesInst d d' := by
  have hl : i < l'.length := by rw [h.len]; exact (List.getElem?_eq_some_iff.1 hd).1
  exact ⟨_, List.getElem?_eq_getElem hl, h.inst i d _ hd (List.getElem?_eq_getElem hl)⟩

theorem Evolves.back {l l' : List InstData} (h : Evolves l l') {i : Nat} {d' : InstData}
    (hd : l'[i]? = some d') : ∃ d, l[i]? = some d ∧ EvolvesInst d d' := by
  have hl : i < l.length := by rw [← h.len]; exact (List.getElem?_eq_some_iff.1 hd).1
  exact ⟨_, List.getElem?_eq_getElem hl, h.inst i _ d' (List.getElem?_eq_getElem hl) hd⟩

theorem Evolves.trans {a b c : List InstData} (h : Evolves a b) (h' : Evolves b c) : Evolves a c := by
  refine ⟨h'.len.trans h.len, fun i d d' h1 h2 => ?_⟩
  obtain ⟨d1, g1, g2⟩ := h.get h1
  exact g2.trans (h'.inst i d1 d' g1 h2)

theorem evolves_mapIdx (ts : List Nat) (l : List InstData) : Evolves l
    (l.mapIdx fun i d => if d.isJumpdest then { d with reachable := ts.contains i } else d) := by
  refine ⟨by simp, fun i d d' ha hb => ?_⟩
  rw [List.getElem?_mapIdx, ha, Option.map_some] at hb
  cases hb
  split
  · exact ⟨rfl, rfl, rfl, rfl, rfl, id, fun _ => rfl, fun _ => rfl, rfl⟩
  · exact .refl _

theorem evolves_recomputeReachable (p : Prog) : Evolves p.insts p.recomputeReachable.insts :=
  evolves_mapIdx _ _

theorem evolves_markLoop (dyn : Bool) (l : List InstData) : ∀ i k, Evolves l (markLoop dyn i k l) := by
  induction l with
  | nil => intro i k; cases k <;> exact .refl _
  | cons d ds ih =>
    have key : ∀ (d1 : InstData) (i : Nat) (k : Option (Option Nat)), EvolvesInst d d1 →
        Evolves (d :: ds) (d1 :: markLoop dyn i k ds) := by
      intro d1 i k h1
      have m := ih i k
      refine ⟨by simp [m.len], fun n a a' ha ha' => ?_⟩
      cases n with
      | zero =>
        simp only [List.getElem?_cons_zero, Option.some.injEq] at ha ha'
        subst ha; subst ha'
        exact h1
      | succ n => exact m.inst n a a' (by simpa using ha) (by simpa using ha')
    intro i k
    cases k with
    | none =>
      rw [markLoop]
      dsimp only
      repeat' split
      all_goals exact key d _ _ (.refl _)
    | some st =>
      rw [markLoop]
      split
      · exact key d _ _ (.refl _)
      · exact key _ _ _ ⟨rfl, rfl, rfl, rfl, rfl, fun _ => rfl, fun _ => rfl, fun _ => rfl, rfl⟩

theorem evolves_markDead (fuel : Nat) : ∀ p : Prog, Evolves p.insts (markDead fuel p).insts := by
  induction fuel with
  | zero => intro p; exact .refl _
  | succ n ih =>
    intro p
    rw [markDead]
    dsimp only
    split
    · exact ((evolves_markLoop p.hasDyn p.insts 0 none).trans
        (evolves_recomputeReachable
          ({ p with insts := markLoop p.hasDyn 0 none p.insts } : Prog).recomputeHasDyn)).trans (ih _)
    · exact evolves_markLoop p.hasDyn p.insts 0 none

theorem evolves_refresh (p : Prog) : Evolves p.insts p.refresh.insts :=
  (evolves_recomputeReachable p.recomputeHasDyn).trans (evolves_markDead _ _)

theorem evolves_modify {l : List InstData} {i : Nat} {f : InstData → InstData}
    (h : ∀ d, l[i]? = some d → EvolvesInst d (f d)) : Evolves l (l.modify i f) := by
  refine ⟨by simp, fun j d d' ha hb => ?_⟩
  rw [List.getElem?_modify, ha, Option.map_eq_map, Option.map_some] at hb
  cases hb
  split
  · rename_i hij; subst hij; exact h d ha
  · exact .refl _

/-- Changing only flags and data of a jump. -/
theorem evolvesInst_jump {d d' : InstData} (hj : d.isJump = true) (h1 : d'.opcode = d.opcode)
    (h2 : d'.stackIo = d.stackIo) (h3 : d'.baseGas = d.baseGas) (h4 : d'.flags.disabled = d.flags.disabled)
    (h5 : d'.flags.unknown = d.flags.unknown) (h6 : d'.flags.deadCode = d.flags.deadCode)
    (h7 : d'.flags.noop = d.flags.noop) :
    EvolvesInst d d' :=
  ⟨h1, h2, h3, h4, h5, fun h => h6.trans h, fun h => by rw [hj] at h; simp at h,
    fun h => by rw [hj] at h; simp at h, h7⟩

theorem evolves_commitOne (p : Prog) (top : Bool) (i : Nat) (r : JumpRes)
    (hj : ∀ d, p.insts[i]? = some d → d.isJump = true) :
    Evolves p.insts (p.commitOne top i r).insts := by
  unfold Prog.commitOne
  dsimp only
  split
  · exact .refl _
  · have h1 : Evolves p.insts (if (r.cond != .unknown) = true then
        p.modify i fun d => { d with flags := { d.flags with constJumpCond := true } } else p).insts := by
      split
      · exact evolves_modify fun d hd => evolvesInst_jump (hj d hd) rfl rfl rfl rfl rfl rfl rfl
      · exact .refl _
    revert h1
    generalize (if (r.cond != .unknown) = true then
        p.modify i fun d => { d with flags := { d.flags with constJumpCond := true } } else p) = q
    intro h1
    have hj' : ∀ d, q.insts[i]? = some d → d.isJump = true := fun d hd => by
      obtain ⟨d0, g1, g2⟩ := h1.back hd
      rw [g2.isJump]; exact hj d0 g1
    refine h1.trans ?_
    split
    · split
      · exact evolves_modify fun d hd => evolvesInst_jump (hj' d hd) rfl rfl rfl rfl rfl rfl rfl
      · exact evolves_modify fun d hd => evolvesInst_jump (hj' d hd) rfl rfl rfl rfl rfl rfl rfl
    · exact evolves_modify fun d hd => evolvesInst_jump (hj' d hd) rfl rfl rfl rfl rfl rfl rfl
    · split
      · exact evolves_modify fun d hd => evolvesInst_jump (hj' d hd) rfl rfl rfl rfl rfl rfl rfl
      · exact .refl _
    · exact .refl _

/-- Every entry is about a jump. -/
def AtJumps (insts : List InstData) (res : List (Nat × JumpRes)) : Prop :=
  ∀ r ∈ res, ∀ d, insts[r.1]? = some d → d.isJump = true

theorem evolves_commits (top : Bool) (res : List (Nat × JumpRes)) : ∀ p : Prog, AtJumps p.insts res →
    Evolves p.insts (res.foldl (fun p r => p.commitOne top r.1 r.2) p).insts := by
  induction res with
  | nil => intro p _; exact .refl _
  | cons r res ih =>
    intro p h
    have h1 := evolves_commitOne p top r.1 r.2 (h r List.mem_cons_self)
    refine h1.trans (ih _ fun r' hr' d hd => ?_)
    obtain ⟨d0, g1, g2⟩ := h1.back hd
    rw [g2.isJump]
    exact h r' (List.mem_cons_of_mem _ hr') d0 g1

theorem evolves_commit (p : Prog) (res : List (Nat × JumpRes)) (h : AtJumps p.insts res) :
    Evolves p.insts (p.commit res).insts :=
  (evolves_commits _ res p h).trans (evolves_recomputeReachable _)

theorem local_atJumps (code : Code) (limit : Nat) (p : Prog) (bs : List (Nat × Nat)) :
    ∀ acc : AIState × List (Nat × JumpRes), AtJumps p.insts acc.2 →
      AtJumps p.insts (bs.foldl (fun acc b => localBlock code limit p b acc) acc).2 := by
  induction bs with
  | nil => intro acc h; exact h
  | cons b bs ih =>
    intro acc h
    refine ih _ ?_
    unfold localBlock
    dsimp only
    repeat' split
    all_goals first | exact h | skip
    rename_i hd hnj _ _ _
    intro r hr d hd'
    rcases List.mem_append.1 hr with hr | hr
    · exact h r hr d hd'
    · simp only [List.mem_singleton] at hr
      subst hr
      simp only [Bool.or_eq_true, Bool.not_eq_true', not_or, Bool.not_eq_true, Bool.not_eq_false] at hnj
      dsimp only at hd'
      rw [hd] at hd'
      cases hd'
      exact hnj.1

theorem evolves_local (code : Code) (limit : Nat) (p : Prog) (st : AIState) :
    Evolves p.insts (blockAnalysisLocal code limit p st).1.insts :=
  evolves_commit p _ (local_atJumps code limit p p.blocks (st, []) fun r hr => by simp at hr)

theorem mem_jumpInsts {p : Prog} {x : Nat × InstData} (h : x ∈ p.jumpInsts) :
    p.insts[x.1]? = some x.2 ∧ x.2.isJump = true ∧
      (x.2.flags.staticJump = false ∨ (x.2.opcode = op.JUMPI ∧ x.2.hasConstJumpiCondition = false)) := by
  unfold Prog.jumpInsts at h
  rw [List.mem_filter] at h
  obtain ⟨h1, h2⟩ := h
  unfold Prog.slice at h1
  obtain ⟨i, _, h3⟩ := List.mem_filterMap.1 h1
  obtain ⟨d, h4, rfl⟩ := Option.map_eq_some_iff.1 h3
  simp only [Bool.and_eq_true, Bool.or_eq_true, Bool.not_eq_true', beq_iff_eq] at h2
  exact ⟨h4, h2.1, h2.2⟩

theorem invalidateOne_fst (loc : AIState) (p : Prog) (bs : List (Nat × Nat)) (sus : List Nat)
    (x : Nat × JumpRes) : (invalidateOne loc p bs sus x).1 = x.1 := by
  unfold invalidateOne
  split
  · dsimp only
    split
    · split
      · rfl
      · split <;> rfl
    · rfl
  · rfl

theorem runAbs_atJumps (code : Code) (limit : Nat) (p : Prog) (loc st : AIState) :
    AtJumps p.insts (runAbstractInterp code limit p loc st).1 := by
  have hb : ∀ st1, AtJumps p.insts (p.jumpInsts.map fun x => (x.1, resolveJump code st1 x.1 x.2)) := by
    intro st1 r hr d hd
    obtain ⟨x, hx, rfl⟩ := List.mem_map.1 hr
    obtain ⟨h1, h2, _⟩ := mem_jumpInsts hx
    dsimp only at hd
    rw [h1] at hd; cases hd; exact h2
  unfold runAbstractInterp
  dsimp only
  generalize (if (runFixpoint code limit p p.blocks st).2 then (runFixpoint code limit p p.blocks st).1.ai
    else restore (runFixpoint code limit p p.blocks st).1.ai loc fun _ => true) = st1
  split
  · intro r hr d hd
    obtain ⟨y, hy, rfl⟩ := List.mem_map.1 hr
    refine hb _ y hy d ?_
    have : (invalidateOne loc p p.blocks (suspects p p.blocks (runFixpoint code limit p p.blocks st).1) y).1 = y.1 := by
      exact invalidateOne_fst _ _ _ _ _
    rw [this] at hd
    exact hd
  · exact hb _

theorem evolves_blockAnalysis (code : Code) (limit : Nat) (p : Prog) (loc st : AIState) :
    Evolves p.insts (blockAnalysis code limit p loc st).1.insts := by
  unfold blockAnalysis
  dsimp only
  split
  · exact evolves_commit p _ (runAbs_atJumps code limit p loc st)
  · exact .refl _

theorem analyzeFlow_fst (code : Code) (limit : Nat) (p : Prog) : (analyzeFlow code limit p).1 =
    (blockAnalysis code limit (blockAnalysisLocal code limit p.refresh {}).1.refresh
      (blockAnalysisLocal code limit p.refresh {}).2 (blockAnalysisLocal code limit p.refresh {}).2).1.refresh := by
  unfold analyzeFlow
  dsimp only

theorem evolves_analyze (code : Code) (limit : Nat) (p : Prog) :
    Evolves p.insts (analyzeFlow code limit p).1.insts := by
  rw [analyzeFlow_fst]
  have h1 := evolves_refresh p
  have h2 := evolves_local code limit p.refresh {}
  have h3 := evolves_refresh (blockAnalysisLocal code limit p.refresh {}).1
  have h4 := evolves_blockAnalysis code limit (blockAnalysisLocal code limit p.refresh {}).1.refresh
    (blockAnalysisLocal code limit p.refresh {}).2 (blockAnalysisLocal code limit p.refresh {}).2
  exact ((((h1.trans h2).trans h3).trans h4).trans (evolves_refresh _))

end Verif
