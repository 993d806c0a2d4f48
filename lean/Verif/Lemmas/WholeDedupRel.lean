import Verif.Model.WholeDedup
import Verif.Lemmas.DedupSim
/-!
# Blocks that differ in their place only are translated alike
-/

namespace Verif
variable {F : Type}

/-- The code generator sees the same in two instructions, at the same distance, less than `L`, from `s` and `s'`. -/
structure CRel (code : Code) (ai ai' : AIState) (s s' L : Nat) (x y : Nat × InstData) : Prop where
  off : ∃ n, n < L ∧ x.1 = s + n ∧ y.1 = s' + n
  op : y.2.opcode = x.2.opcode
  io : y.2.stackIo = x.2.stackIo
  dis : y.2.flags.disabled = x.2.flags.disabled
  unk : y.2.flags.unknown = x.2.flags.unknown
  noop : y.2.flags.noop = x.2.flags.noop
  jump : x.2.isJump = true → y.2.flags.staticJump = x.2.flags.staticJump ∧
    y.2.flags.invalidJump = x.2.flags.invalidJump ∧ y.2.flags.multiJump = x.2.flags.multiJump
  con : y.2.hasConstJumpiCondition = x.2.hasConstJumpiCondition
  imm : (0x5f ≤ x.2.opcode.toNat ∧ x.2.opcode.toNat ≤ 0x7f) ∨
    (0xe6 ≤ x.2.opcode.toNat ∧ x.2.opcode.toNat ≤ 0xe8) → code.imm y.1 = code.imm x.1
  inp : ai'.inputs y.1 = ai.inputs x.1
  out : ai'.outputs y.1 = ai.outputs x.1

section rel
variable {code : Code} {ai ai' : AIState} {s s' L : Nat} {x y : Nat × InstData} (h : CRel code ai ai' s s' L x y)
include h

theorem CRel.isJump : y.2.isJump = x.2.isJump := by unfold InstData.isJump; rw [h.op]

theorem CRel.maySuspend : y.2.maySuspend = x.2.maySuspend := by unfold InstData.maySuspend; rw [h.op]

theorem CRel.isDiverging : y.2.isDiverging = x.2.isDiverging := by
  unfold InstData.isDiverging
  rw [h.op, h.dis, h.unk]
  by_cases hj : x.2.opcode = op.JUMP
  · have : x.2.isJump = true := by unfold InstData.isJump; rw [hj]; rfl
    rw [(h.jump this).2.1]
  · have : (x.2.opcode == op.JUMP) = false := by simpa using hj
    rw [this]; rfl

theorem CRel.isBranching : y.2.isBranching = x.2.isBranching := by
  unfold InstData.isBranching; rw [h.isJump, h.isDiverging]

theorem CRel.endsSection (spec : SpecId) : y.2.endsSection spec = x.2.endsSection spec := by
  unfold InstData.endsSection InstData.requiresGasleft
  rw [h.maySuspend, h.isBranching, h.op]

theorem CRel.decodeImm : decodeImm code y.1 y.2.opcode = decodeImm code x.1 x.2.opcode := by
  unfold Verif.decodeImm
  rw [h.op]
  by_cases h1 : x.2.opcode = Verif.op.DUPN
  · rw [h.imm (.inr (by rw [h1]; decide))]
  by_cases h2 : x.2.opcode = Verif.op.SWAPN
  · rw [h.imm (.inr (by rw [h2]; decide))]
  by_cases h3 : x.2.opcode = Verif.op.EXCHANGE
  · rw [h.imm (.inr (by rw [h3]; decide))]
  have e1 : (x.2.opcode == Verif.op.DUPN) = false := by simpa using h1
  have e2 : (x.2.opcode == Verif.op.SWAPN) = false := by simpa using h2
  have e3 : (x.2.opcode == Verif.op.EXCHANGE) = false := by simpa using h3
  rw [e1, e2, e3]; rfl

theorem CRel.constOperand : ai'.constOperand y.1 = ai.constOperand x.1 := by
  funext n; unfold AIState.constOperand; rw [h.inp]

theorem CRel.constOutput : ai'.constOutput y.1 = ai.constOutput x.1 := by
  unfold AIState.constOutput; rw [h.out]

theorem CRel.lowerOf : lowerOf code ai' y.1 y.2 = lowerOf code ai x.1 x.2 := by
  unfold Verif.lowerOf
  dsimp only
  rw [h.dis, h.unk, h.isJump, h.maySuspend, h.con, h.decodeImm, h.op, h.io, h.constOperand]
  cases hj : x.2.isJump with
  | false => simp
  | true =>
    obtain ⟨h1, h2, h3⟩ := h.jump hj
    rw [h1, h2, h3]

theorem CRel.badImm : badImm code y = badImm code x := by
  unfold Verif.badImm
  rw [h.dis, h.unk, h.decodeImm, h.op]

theorem CRel.pushTranslates : pushTranslates ai' y = pushTranslates ai x := by
  unfold Verif.pushTranslates
  rw [h.dis, h.unk, h.noop, h.op, h.constOutput]

theorem CRel.dseInst (H : Int) (L : List Bool) : dseInst code ai' y.1 y.2 H L = dseInst code ai x.1 x.2 H L := by
  unfold Verif.dseInst
  dsimp only
  rw [h.dis, h.unk, h.noop, h.decodeImm, h.isBranching, h.isDiverging, h.maySuspend, h.op, h.io, h.inp, h.out]

theorem CRel.marked (b : Bool) : CRel code ai ai' s s' L
    (x.1, if b then { x.2 with flags := { x.2.flags with noop := true } } else x.2)
    (y.1, if b then { y.2 with flags := { y.2.flags with noop := true } } else y.2) := by
  obtain ⟨h1, h2, h3, h4, h5, h6, h7, h8, h9, h10, h11⟩ := h
  cases b
  · exact ⟨h1, h2, h3, h4, h5, h6, h7, h8, h9, h10, h11⟩
  · exact ⟨h1, h2, h3, h4, h5, rfl, h7, h8, h9, h10, h11⟩

end rel

section lists
variable {code : Code} {ai ai' : AIState} {s s' L : Nat} {l l' : List (Nat × InstData)}

theorem matched_foldl (h : Matched (CRel code ai ai' s s' L) l l') : ∀ a : StackAcc,
    l'.foldl (fun a p => a.process p.2.stackIo.1 p.2.stackIo.2) a =
      l.foldl (fun a p => a.process p.2.stackIo.1 p.2.stackIo.2) a := by
  induction h with
  | nil => intro a; rfl
  | cons h1 _ ih =>
    intro a
    rw [List.foldl_cons, List.foldl_cons, h1.io]
    exact ih _

theorem matched_any {R : Nat × InstData → Nat × InstData → Prop} {f g : Nat × InstData → Bool}
    (hf : ∀ x y, R x y → g y = f x) (h : Matched R l l') : l'.any g = l.any f := by
  induction h with
  | nil => rfl
  | cons h1 _ ih => rw [List.any_cons, List.any_cons, ih, hf _ _ h1]

theorem matched_all {R : Nat × InstData → Nat × InstData → Prop} {f g : Nat × InstData → Bool}
    (hf : ∀ x y, R x y → g y = f x) (h : Matched R l l') : l'.all g = l.all f := by
  induction h with
  | nil => rfl
  | cons h1 _ ih => rw [List.all_cons, List.all_cons, ih, hf _ _ h1]

theorem matched_findIdx {R : Nat × InstData → Nat × InstData → Prop} {f g : Nat × InstData → Bool}
    (hf : ∀ x y, R x y → g y = f x) (h : Matched R l l') : l'.findIdx? g = l.findIdx? f := by
  induction h with
  | nil => rfl
  | cons h1 _ ih => rw [List.findIdx?_cons, List.findIdx?_cons, ih, hf _ _ h1]

theorem matched_last {R : Nat × InstData → Nat × InstData → Prop} {f g : Nat × InstData → Bool}
    (hf : ∀ x y, R x y → g y = f x) (h : Matched R l l') : l'.getLast?.any g = l.getLast?.any f := by
  induction h with
  | nil => rfl
  | @cons a b as bs h1 ht ih =>
    cases ht with
    | nil => simp only [List.getLast?_singleton, Option.any_some]; exact hf _ _ h1
    | cons h2 h3 => rw [List.getLast?_cons_cons, List.getLast?_cons_cons]; exact ih

theorem matched_map {α β : Type} {R : α → α → Prop} {f g : α → β} {l l' : List α}
    (hf : ∀ x y, R x y → g y = f x) (h : Matched R l l') : l'.map g = l.map f := by
  induction h with
  | nil => rfl
  | cons h1 _ ih => rw [List.map_cons, List.map_cons, ih, hf _ _ h1]

theorem matched_dseWalk (h : Matched (CRel code ai ai' s s' L) l l') : ∀ (H : Int) (Q : List Bool)
    {r' : List (Nat × InstData) × List Bool}, dseWalk code ai' l' H Q = some r' →
    ∃ r, dseWalk code ai l H Q = some (r, r'.2) ∧ Matched (CRel code ai ai' s s' L) r r'.1 := by
  induction h with
  | nil => intro H Q r' hr; cases hr; exact ⟨[], rfl, .nil⟩
  | @cons a b as bs h1 _ ih =>
    intro H Q r' hr
    obtain ⟨i, d⟩ := a
    obtain ⟨j, e⟩ := b
    rw [dseWalk] at hr ⊢
    obtain ⟨q, hq, hr⟩ := Option.bind_eq_some_iff.1 hr
    obtain ⟨z, hz, rfl⟩ := Option.map_eq_some_iff.1 hr
    have hio : e.stackIo = d.stackIo := h1.io
    rw [hio] at hq
    obtain ⟨r, e1, e2⟩ := ih _ _ hq
    have hi := h1.dseInst H q.2
    dsimp only at hi
    rw [hi] at hz
    rw [e1, Option.bind_some]
    dsimp only
    rw [hz]
    exact ⟨_, rfl, .cons (h1.marked z.1) e2⟩

theorem matched_dseBlock (ins : Bool) (h : Matched (CRel code ai ai' s s' L) l l') {r' : List (Nat × InstData)}
    (hr : dseBlock ins code ai' l' = some r') :
    ∃ r, dseBlock ins code ai l = some r ∧ Matched (CRel code ai ai' s s' L) r r' := by
  unfold dseBlock blockAcc termDiverges at *
  dsimp only at *
  rw [matched_foldl h, matched_any (f := fun p => p.2.maySuspend) (fun _ _ h => h.maySuspend) h,
    matched_last (f := fun p => p.2.isDiverging) (fun _ _ h => h.isDiverging) h] at hr
  split at hr
  · rename_i hc
    cases hr
    exact ⟨l, by rw [if_pos hc], h⟩
  · rename_i hc
    obtain ⟨q, hq, rfl⟩ := Option.map_eq_some_iff.1 hr
    obtain ⟨r, e1, e2⟩ := matched_dseWalk h _ _ hq
    exact ⟨r, by rw [if_neg hc, e1]; rfl, e2⟩

theorem matched_split (spec : SpecId) (h : Matched (CRel code ai ai' s s' L) l l') :
    Matched (Matched (CRel code ai ai' s s' L)) (splitSections spec l) (splitSections spec l') := by
  induction h with
  | nil => exact .nil
  | @cons a b as bs h1 _ ih =>
    rw [splitSections, splitSections, h1.endsSection]
    split
    · exact .cons (.cons h1 .nil) ih
    · revert ih
      generalize splitSections spec as = u
      generalize splitSections spec bs = v
      intro ih
      cases ih with
      | nil => exact .cons (.cons h1 .nil) .nil
      | cons h2 h3 => exact .cons (.cons h1 h2) h3

theorem matched_compile {o : WOpts} {p p' : Prog} {b b' : Nat × Nat}
    (h : Matched (CRel code ai ai' b.1 b'.1 (b.2 - b.1)) (p.blockInsts b) (p'.blockInsts b')) {x' : CBlock}
    (hx : compileBlock o code p' ai' b' = some x') :
    ∃ x, compileBlock o code p ai b = some x ∧ x.start = b.1 ∧ x.stop = b.2 ∧ x'.start = b'.1 ∧ x'.stop = b'.2 ∧
      Matched (CRel code ai ai' b.1 b'.1 (b.2 - b.1)) x.insts x'.insts := by
  unfold compileBlock at hx ⊢
  obtain ⟨l', hl', hx⟩ := Option.bind_eq_some_iff.1 hx
  have key : ∃ l, (if o.dse then dseBlock o.inspect code ai (p.blockInsts b) else some (p.blockInsts b)) = some l ∧
      Matched (CRel code ai ai' b.1 b'.1 (b.2 - b.1)) l l' := by
    split at hl'
    · obtain ⟨r, e1, e2⟩ := matched_dseBlock o.inspect h hl'
      rename_i hc
      exact ⟨r, by rw [if_pos hc]; exact e1, e2⟩
    · rename_i hc
      cases hl'
      exact ⟨_, by rw [if_neg hc], h⟩
  obtain ⟨l, hl, hm⟩ := key
  rw [hl, Option.bind_some]
  rw [matched_all (f := pushTranslates ai) (fun _ _ h => h.pushTranslates) hm] at hx
  split at hx
  · rename_i hc
    cases hx
    exact ⟨_, by rw [if_pos hc], rfl, rfl, rfl, rfl, hm⟩
  · cases hx

theorem compileBlocks_each {o : WOpts} {p : Prog} : ∀ {bs : List (Nat × Nat)},
    (∀ b ∈ bs, ∃ x, compileBlock o code p ai b = some x) → ∃ out, compileBlocks o code p ai bs = some out
  | [], _ => ⟨[], rfl⟩
  | b :: bs, h => by
    obtain ⟨x, hx⟩ := h b (by simp)
    obtain ⟨out, ho⟩ := compileBlocks_each (bs := bs) fun c hc => h c (by simp [hc])
    refine ⟨x :: out, ?_⟩
    rw [compileBlocks, hx, Option.bind_some, ho]
    rfl

theorem compileBlocks_each_mem {o : WOpts} {p : Prog} : ∀ {bs : List (Nat × Nat)} {out : List CBlock},
    compileBlocks o code p ai bs = some out →
    (∀ b ∈ bs, ∃ x ∈ out, compileBlock o code p ai b = some x) ∧
    ∀ x ∈ out, ∃ b ∈ bs, compileBlock o code p ai b = some x
  | [], out, h => by cases h; simp
  | b :: bs, out, h => by
    rw [compileBlocks] at h
    obtain ⟨x, hx, h⟩ := Option.bind_eq_some_iff.1 h
    obtain ⟨xs, hxs, rfl⟩ := Option.map_eq_some_iff.1 h
    obtain ⟨i1, i2⟩ := compileBlocks_each_mem hxs
    refine ⟨fun c hc => ?_, fun y hy => ?_⟩
    · rcases List.mem_cons.1 hc with rfl | hc
      · exact ⟨x, by simp, hx⟩
      · obtain ⟨z, hz, e⟩ := i1 c hc
        exact ⟨z, by simp [hz], e⟩
    · rcases List.mem_cons.1 hy with rfl | hy
      · exact ⟨b, by simp, hx⟩
      · obtain ⟨z, hz, e⟩ := i2 y hy
        exact ⟨z, by simp [hz], e⟩

end lists

end Verif
