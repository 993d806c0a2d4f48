import Verif.Lemmas.FlowSem
/-!
# Marking dead code keeps the program right
-/

namespace Verif
open Spec

/-- The jump has its operands. -/
def HasArgs (d : InstData) (c : List Word) : Prop := (if d.opcode = op.JUMP then 1 else 2) ≤ c.length

/-- What the flags of the jump at `i` say is true of the stack `c`. -/
structure FlagsOk (p : Prog) (code : Code) (i : Nat) (d : InstData) (c : List Word) : Prop where
  multi : d.flags.multiJump = true → ∃ t ∈ (p.multi.lookup i).getD [], code.target (c.headD 0) = some t
  invalid : d.flags.invalidJump = true → code.target (c.headD 0) = none
  single : d.flags.staticJump = true → d.flags.multiJump = false → d.flags.invalidJump = false →
    code.target (c.headD 0) = some d.staticJumpTarget ∨
      (d.opcode = op.JUMPI ∧ d.flags.constJumpCond = true ∧ c.tail.headD 0 = 0 ∧ d.staticJumpTarget = i + 1)

/-- The program agrees with the executions of `base`: no visited instruction is dead, and from every
visited jump the generated code goes where the EVM goes. -/
structure Sound (code : Code) (base : List InstData) (ok : Nat → List Word → Prop) (p : Prog) : Prop where
  ev : Evolves base p.insts
  live : ∀ i c, Reach code base ok i c → LiveAt p.insts i
  next : ∀ i c d, Reach code base ok i c → p.insts[i]? = some d → d.isJump = true → ¬ Halts d → HasArgs d c →
    p.compiledNext code i d c = evmNext code i d c
  says : ∀ i c d, Reach code base ok i c → p.insts[i]? = some d → d.isJump = true → ¬ Halts d → HasArgs d c →
    FlagsOk p code i d c

/-- The summary flags are up to date for live jumps. -/
structure Flagged (p : Prog) : Prop where
  dyn : ∀ (i : Nat) d, p.insts[i]? = some d → d.flags.deadCode = false → d.isJump = true →
    d.flags.staticJump = false → p.hasDyn = true
  reach : ∀ (i : Nat) d t dt, p.insts[i]? = some d → t ∈ p.targetsOf i d → p.insts[t]? = some dt →
    dt.isJumpdest = true → dt.reachable = true

theorem EvolvesInst.halts {d d' : InstData} (h : EvolvesInst d d') : Halts d' ↔ Halts d := by
  unfold Halts; rw [h.dis, h.unk, h.op]

theorem EvolvesInst.hasArgs {d d' : InstData} (h : EvolvesInst d d') {c : List Word} :
    HasArgs d' c ↔ HasArgs d c := by
  unfold HasArgs; rw [h.op]

theorem evmNext_congr {code : Code} {i : Nat} {d d' : InstData} (h : d'.opcode = d.opcode) (c : List Word) :
    evmNext code i d' c = evmNext code i d c := by
  unfold evmNext; rw [h]

/-- Instruction data that generated jumps depend on. -/
structure SameJump (d d' : InstData) : Prop where
  op : d'.opcode = d.opcode
  inv : d'.flags.invalidJump = d.flags.invalidJump
  mul : d'.flags.multiJump = d.flags.multiJump
  sta : d'.flags.staticJump = d.flags.staticJump
  con : d'.flags.constJumpCond = d.flags.constJumpCond
  dat : d'.data = d.data

theorem SameJump.refl (d : InstData) : SameJump d d := ⟨rfl, rfl, rfl, rfl, rfl, rfl⟩

theorem SameJump.isJump {d d' : InstData} (h : SameJump d d') : d'.isJump = d.isJump := by
  unfold InstData.isJump; rw [h.op]

theorem compiledNext_congr {p p' : Prog} {code : Code} {i : Nat} {d d' : InstData} {c : List Word}
    (h : SameJump d d') (hm : p'.multi.lookup i = p.multi.lookup i) :
    p'.compiledNext code i d' c = p.compiledNext code i d c := by
  unfold Prog.compiledNext InstData.hasConstJumpiCondition InstData.staticJumpTarget
  rw [h.op, h.inv, h.mul, h.sta, h.con, h.dat, hm]

theorem FlagsOk.congr {p p' : Prog} {code : Code} {i : Nat} {d d' : InstData} {c : List Word}
    (h : SameJump d d') (hm : p'.multi.lookup i = p.multi.lookup i) (hf : FlagsOk p code i d c) :
    FlagsOk p' code i d' c := by
  obtain ⟨a, b, e⟩ := hf
  refine ⟨?_, ?_, ?_⟩
  · rw [h.mul, hm]; exact a
  · rw [h.inv]; exact b
  · unfold InstData.staticJumpTarget at e ⊢
    rw [h.sta, h.mul, h.inv, h.dat, h.op, h.con]; exact e

theorem Sound.congr {code : Code} {base : List InstData} {ok : Nat → List Word → Prop} {p p' : Prog}
    (h : Sound code base ok p) (hev : Evolves p.insts p'.insts)
    (hsame : ∀ (i : Nat) d d', p.insts[i]? = some d → p'.insts[i]? = some d' → d.isJump = true → SameJump d d')
    (hm : ∀ i, p'.multi.lookup i = p.multi.lookup i)
    (hlive : ∀ i c, Reach code base ok i c → LiveAt p'.insts i) : Sound code base ok p' := by
  refine ⟨h.ev.trans hev, hlive, fun i c d' hr hd' hj hh ha => ?_, fun i c d' hr hd' hj hh ha => ?_⟩
  · obtain ⟨d, hd, he⟩ := hev.back hd'
    have hj' : d.isJump = true := he.isJump ▸ hj
    rw [compiledNext_congr (hsame i d d' hd hd' hj') (hm i),
      h.next i c d hr hd hj' (fun x => hh (he.halts.2 x)) (he.hasArgs.1 ha), evmNext_congr he.op]
  · obtain ⟨d, hd, he⟩ := hev.back hd'
    have hj' : d.isJump = true := he.isJump ▸ hj
    exact (h.says i c d hr hd hj' (fun x => hh (he.halts.2 x)) (he.hasArgs.1 ha)).congr
      (hsame i d d' hd hd' hj') (hm i)

theorem Sound.hasDyn {code : Code} {base : List InstData} {ok : Nat → List Word → Prop} {p : Prog}
    (h : Sound code base ok p) : Sound code base ok p.recomputeHasDyn :=
  ⟨h.ev, h.live, h.next, fun i c d a b e f g => FlagsOk.congr (p := p) (.refl d) rfl (h.says i c d a b e f g)⟩

/-! ## Recomputing the flags -/

theorem mem_collect (p : Prog) (ds : List InstData) : ∀ (n t : Nat), t ∈ p.collect n ds ↔
    ∃ (i : Nat) (d : InstData), ds[i]? = some d ∧ t ∈ p.targetsOf (n + i) d := by
  induction ds with
  | nil => intro n t; simp [Prog.collect]
  | cons d ds ih =>
    intro n t
    rw [Prog.collect, List.mem_append, ih]
    constructor
    · rintro (h | ⟨i, d', h1, h2⟩)
      · exact ⟨0, d, rfl, h⟩
      · exact ⟨i + 1, d', h1, by rwa [show n + (i + 1) = n + 1 + i by omega]⟩
    · rintro ⟨i, d', h1, h2⟩
      cases i with
      | zero => cases h1; exact .inl h2
      | succ i => exact .inr ⟨i, d', h1, by rwa [show n + 1 + i = n + (i + 1) by omega]⟩

theorem recomputeReachable_get {p : Prog} {i : Nat} {d' : InstData}
    (h : p.recomputeReachable.insts[i]? = some d') : ∃ d, p.insts[i]? = some d ∧
      d' = if d.isJumpdest then { d with reachable := (p.collect 0 p.insts).contains i } else d := by
  unfold Prog.recomputeReachable at h
  dsimp only at h
  rw [List.getElem?_mapIdx] at h
  obtain ⟨d, h1, h2⟩ := Option.map_eq_some_iff.1 h
  exact ⟨d, h1, h2.symm⟩

theorem jumpdest_not_jump {d : InstData} (h : d.isJumpdest = true) : d.isJump = false := by
  unfold InstData.isJumpdest at h
  have : d.opcode = op.JUMPDEST := by simpa using h
  unfold InstData.isJump; rw [this]; decide

theorem recomputeReachable_same {p : Prog} {i : Nat} {d d' : InstData} (h : p.insts[i]? = some d)
    (h' : p.recomputeReachable.insts[i]? = some d') (hj : d.isJump = true) : d' = d := by
  obtain ⟨d0, h1, rfl⟩ := recomputeReachable_get h'
  rw [h] at h1; cases h1
  rw [if_neg]
  intro hd
  rw [jumpdest_not_jump hd] at hj; simp at hj

theorem recomputeReachable_dead {p : Prog} {i : Nat} (h : LiveAt p.insts i) :
    LiveAt p.recomputeReachable.insts i := by
  obtain ⟨d, hd, hl⟩ := h
  obtain ⟨d', hd', he⟩ := (evolves_recomputeReachable p).get hd
  obtain ⟨d0, h1, h2⟩ := recomputeReachable_get hd'
  rw [hd] at h1; cases h1
  refine ⟨d', hd', ?_⟩
  rw [h2]
  split
  · exact hl
  · exact hl

theorem sound_recompute {code : Code} {base : List InstData} {ok : Nat → List Word → Prop} {p : Prog}
    (h : Sound code base ok p) : Sound code base ok p.recomputeHasDyn.recomputeReachable := by
  have h0 : Sound code base ok p.recomputeHasDyn := h.hasDyn
  refine h0.congr (evolves_recomputeReachable _) (fun i d d' hd hd' hj => ?_) (fun _ => rfl)
    (fun i c hr => recomputeReachable_dead (h.live i c hr))
  rw [recomputeReachable_same hd hd' hj]
  exact .refl _

theorem mem_targetsOf {p : Prog} {i t : Nat} {d : InstData} (h : t ∈ p.targetsOf i d) :
    d.isJump = true ∧ d.flags.deadCode = false := by
  unfold Prog.targetsOf at h
  split at h
  · simp at h
  · rename_i hc
    simp only [Bool.or_eq_true, Bool.not_eq_true', not_or, Bool.not_eq_false, Bool.not_eq_true] at hc
    have h1 := hc.1.1
    unfold InstData.isStaticJump at h1
    rw [Bool.and_eq_true] at h1
    exact ⟨h1.1, hc.2⟩

theorem flagged_recompute (p : Prog) : Flagged p.recomputeHasDyn.recomputeReachable := by
  refine ⟨fun i d' hd' hl hj hs => ?_, fun i d' t dt hd' ht hdt hjd => ?_⟩
  · show (p.insts.any _) = true
    obtain ⟨d, hd, he⟩ := (evolves_recomputeReachable p.recomputeHasDyn).back hd'
    have := recomputeReachable_same hd hd' (he.isJump ▸ hj)
    subst this
    exact List.any_eq_true.2 ⟨_, List.mem_of_getElem? hd, by simp [hj, hs, hl]⟩
  · obtain ⟨hj, _⟩ := mem_targetsOf ht
    obtain ⟨d, hd, he⟩ := (evolves_recomputeReachable p.recomputeHasDyn).back hd'
    have := recomputeReachable_same hd hd' (he.isJump ▸ hj)
    subst this
    obtain ⟨dt0, hdt0, rfl⟩ := recomputeReachable_get hdt
    split
    · show (Prog.collect _ 0 _).contains t = true
      rw [List.contains_iff_mem, mem_collect]
      exact ⟨i, d', hd, by rw [Nat.zero_add]; exact ht⟩
    · rename_i hn
      rw [if_neg hn] at hjd
      exact absurd hjd hn

/-! ## One marking round -/

/-- An instruction that a round newly marks is no reachable jump destination, and follows a dead one or
one that neither falls through nor jumps to it. -/
theorem markLoop_new (dyn : Bool) (ds : List InstData) : ∀ (i : Nat) (k : Option (Option Nat)) (j : Nat)
    (d d' : InstData), ds[j]? = some d → (markLoop dyn i k ds)[j]? = some d' → d.flags.deadCode = false →
    d'.flags.deadCode = true →
    d.isReachableJumpdest dyn = false ∧ (j = 0 → k ≠ none) ∧
    (0 < j → (∃ e, (markLoop dyn i k ds)[j - 1]? = some e ∧ e.flags.deadCode = true) ∨
      ∃ e, ds[j - 1]? = some e ∧ e.canFallThrough = false ∧
        ¬ (e.isStaticJump = true ∧ e.staticJumpTarget = i + j)) := by
  induction ds with
  | nil => intro i k j d d' h; simp at h
  | cons x ds ih =>
    intro i k j d d' hd hd' hl hdead
    -- the loop emits a head and continues in some state
    have hgen : ∃ y k', markLoop dyn i k (x :: ds) = y :: markLoop dyn (i + 1) k' ds ∧
        ((y = x ∧ (k' = none ∨ (k = none ∧ x.canFallThrough = false ∧
          ¬ (x.isStaticJump = true ∧ x.staticJumpTarget = i + 1)))) ∨
         (y.flags.deadCode = true ∧ k ≠ none ∧ x.isReachableJumpdest dyn = false)) := by
      cases k with
      | none =>
        rw [markLoop]
        split
        · rename_i hc
          dsimp only
          generalize hg : (if x.isStaticJump && i < x.staticJumpTarget then some x.staticJumpTarget else none) = st
          split
          · exact ⟨_, _, rfl, .inl ⟨rfl, .inl rfl⟩⟩
          · rename_i hst
            refine ⟨_, _, rfl, .inl ⟨rfl, .inr ⟨rfl, by simpa using hc, fun hs => hst ?_⟩⟩⟩
            rw [← hg, hs.1, hs.2]
            simp
        · exact ⟨_, _, rfl, .inl ⟨rfl, .inl rfl⟩⟩
      | some st =>
        rw [markLoop]
        split
        · exact ⟨_, _, rfl, .inl ⟨rfl, .inl rfl⟩⟩
        · rename_i hc
          refine ⟨_, _, rfl, .inr ⟨rfl, by simp, ?_⟩⟩
          have : ¬ x.isReachableJumpdest dyn = true := fun h => hc (.inr h)
          simpa using this
    obtain ⟨y, k', he, hy⟩ := hgen
    rw [he] at hd' ⊢
    cases j with
    | zero =>
      cases hd
      rw [List.getElem?_cons_zero] at hd'
      cases hd'
      rcases hy with ⟨rfl, _⟩ | ⟨_, h2, h3⟩
      · rw [hl] at hdead; simp at hdead
      · exact ⟨h3, fun _ => h2, fun h => by omega⟩
    | succ j =>
      rw [List.getElem?_cons_succ] at hd hd'
      obtain ⟨a, b, c⟩ := ih (i + 1) k' j d d' hd hd' hl hdead
      refine ⟨a, fun h => by omega, fun _ => ?_⟩
      cases j with
      | zero =>
        have hk := b rfl
        rcases hy with ⟨rfl, h1 | ⟨h1, h2, h3⟩⟩ | ⟨h1, _, _⟩
        · exact absurd h1 hk
        · exact .inr ⟨_, rfl, h2, h3⟩
        · exact .inl ⟨_, rfl, h1⟩
      | succ j =>
        rcases c (by omega) with ⟨e, h1, h2⟩ | ⟨e, h1, h2, h3⟩
        · exact .inl ⟨e, by simpa using h1, h2⟩
        · refine .inr ⟨e, by simpa using h1, h2, fun h => h3 ⟨h.1, h.2.trans (by omega)⟩⟩

theorem markLoop_get (dyn : Bool) (ds : List InstData) : ∀ (i : Nat) (k : Option (Option Nat)) (j : Nat)
    (d d' : InstData), ds[j]? = some d → (markLoop dyn i k ds)[j]? = some d' →
    d' = d ∨ d' = { d with flags := { d.flags with deadCode := true } } := by
  induction ds with
  | nil => intro i k j d d' h; simp at h
  | cons x ds ih =>
    intro i k j d d' hd hd'
    have hgen : ∃ y k', markLoop dyn i k (x :: ds) = y :: markLoop dyn (i + 1) k' ds ∧
        (y = x ∨ y = { x with flags := { x.flags with deadCode := true } }) := by
      cases k with
      | none =>
        rw [markLoop]
        split
        · dsimp only
          generalize (if x.isStaticJump && i < x.staticJumpTarget then some x.staticJumpTarget else none) = st
          split
          · exact ⟨_, _, rfl, .inl rfl⟩
          · exact ⟨_, _, rfl, .inl rfl⟩
        · exact ⟨_, _, rfl, .inl rfl⟩
      | some st =>
        rw [markLoop]
        split
        · exact ⟨_, _, rfl, .inl rfl⟩
        · exact ⟨_, _, rfl, .inr rfl⟩
    obtain ⟨y, k', he, hy⟩ := hgen
    rw [he] at hd'
    cases j with
    | zero =>
      cases hd
      rw [List.getElem?_cons_zero] at hd'
      cases hd'
      exact hy
    | succ j => exact ih _ _ j d d' hd hd'

theorem step_not_fall {d : InstData} (hh : ¬ Halts d) (h1 : d.opcode.toNat ≠ 0x56) (h2 : d.opcode.toNat ≠ 0x57) :
    d.canFallThrough = true := by
  have hoff := not_halts_off hh
  rw [Bool.or_eq_false_iff] at hoff
  have hj : (d.opcode == op.JUMP) = false := by
    apply beq_eq_false_iff_ne.2
    intro h; exact h1 (by rw [h]; rfl)
  have hji : (d.opcode == op.JUMPI) = false := by
    apply beq_eq_false_iff_ne.2
    intro h; exact h2 (by rw [h]; rfl)
  have hl : [op.STOP, op.RETURN, op.REVERT, op.INVALID, op.SELFDESTRUCT].contains d.opcode = false := by
    apply Bool.eq_false_iff.2
    intro hc
    rw [List.contains_iff_mem] at hc
    apply hh
    refine .inr (.inr ?_)
    simp only [List.mem_cons, List.not_mem_nil, or_false] at hc ⊢
    rcases hc with h | h | h | h | h <;> rw [h] <;> decide
  unfold InstData.canFallThrough InstData.isDiverging InstData.hasConstJumpiCondition
  rw [hj, hji, hl, hoff.1, hoff.2, bne, hj]
  rfl

/-- A JUMPI without a known condition falls through. -/
theorem jumpi_falls {d : InstData} (hh : ¬ Halts d) (h2 : d.opcode.toNat = 0x57)
    (hc : d.hasConstJumpiCondition = false) : d.canFallThrough = true := by
  have hoff := not_halts_off hh
  rw [Bool.or_eq_false_iff] at hoff
  have ho : d.opcode = op.JUMPI := toNat_eq (k := 0x57) (by omega) h2
  unfold InstData.canFallThrough InstData.isDiverging
  rw [hc, hoff.1, hoff.2, ho]
  cases d.flags.invalidJump <;> decide

/-- In a program with up-to-date flags, a live jump's destination other than the next instruction of a
JUMPI is a reachable jump destination. -/
theorem dest_reachable {code : Code} {base : List InstData} {p : Prog} (wf : FlowWf code base)
    (hev : Evolves base p.insts) (hf : Flagged p) {i t : Nat} {d : InstData} {w : Word}
    (hd : p.insts[i]? = some d) (hl : d.flags.deadCode = false) (hj : d.isJump = true)
    (ht : code.target w = some t)
    (hdest : (if d.flags.invalidJump then none
      else if d.flags.multiJump then (code.target w).filter fun t => ((p.multi.lookup i).getD []).contains t
      else if d.flags.staticJump then some d.staticJumpTarget else code.target w) = some t) :
    ∃ dt, p.insts[t]? = some dt ∧ dt.isReachableJumpdest p.hasDyn = true := by
  obtain ⟨b, hb, hbo⟩ := wf.dest w t ht
  obtain ⟨dt, hdt, he⟩ := hev.get hb
  have hjd : dt.isJumpdest = true := by unfold InstData.isJumpdest; rw [he.op, hbo]; rfl
  refine ⟨dt, hdt, ?_⟩
  unfold InstData.isReachableJumpdest
  rw [hjd, Bool.true_and, Bool.or_eq_true]
  cases hs : d.flags.staticJump with
  | false => exact .inl (hf.dyn i d hd hl hj hs)
  | true =>
    right
    refine hf.reach i d t dt hd ?_ hdt hjd
    unfold Prog.targetsOf InstData.isStaticJump
    rw [hj, hs, hl]
    cases hi : d.flags.invalidJump with
    | true => rw [hi] at hdest; simp at hdest
    | false =>
      rw [hi] at hdest
      cases hm : d.flags.multiJump with
      | true =>
        rw [hm, ht] at hdest
        simp only [Bool.false_eq_true, if_false, if_true, Option.filter_eq_some_iff] at hdest
        simpa using hdest.2
      | false =>
        rw [hm, hs] at hdest
        simp only [Bool.false_eq_true, if_false, if_true, Option.some.injEq] at hdest
        simp [hdest]

theorem compiledNext_jump {p : Prog} {code : Code} {i : Nat} {d : InstData} {c : List Word}
    (h : ¬ (d.opcode = op.JUMPI ∧ ¬ d.hasConstJumpiCondition)) :
    p.compiledNext code i d c = if d.flags.invalidJump then none
      else if d.flags.multiJump then (code.target (c.headD 0)).filter fun t => ((p.multi.lookup i).getD []).contains t
      else if d.flags.staticJump then some d.staticJumpTarget else code.target (c.headD 0) := by
  unfold Prog.compiledNext
  dsimp only
  rw [if_neg h]

theorem compiledNext_taken {p : Prog} {code : Code} {i : Nat} {d : InstData} {c : List Word}
    (h : c.tail.headD 0 ≠ 0#256) :
    p.compiledNext code i d c = if d.flags.invalidJump then none
      else if d.flags.multiJump then (code.target (c.headD 0)).filter fun t => ((p.multi.lookup i).getD []).contains t
      else if d.flags.staticJump then some d.staticJumpTarget else code.target (c.headD 0) := by
  unfold Prog.compiledNext
  dsimp only
  rw [if_neg h, ite_self]

theorem evmNext_jump {code : Code} {i : Nat} {d : InstData} {c : List Word} (h : d.opcode.toNat = 0x56) :
    evmNext code i d c = code.target (c.headD 0) := by unfold evmNext; rw [if_pos h]

theorem evmNext_taken {code : Code} {i : Nat} {d : InstData} {c : List Word} (h : d.opcode.toNat = 0x57)
    (hc : c.tail.headD 0 ≠ 0) : evmNext code i d c = code.target (c.headD 0) := by
  unfold evmNext; rw [if_neg (by omega), if_neg hc]

theorem evmNext_fall {code : Code} {i : Nat} {d : InstData} {c : List Word} (h : d.opcode.toNat = 0x57)
    (hc : c.tail.headD 0 = 0) : evmNext code i d c = some (i + 1) := by
  unfold evmNext; rw [if_neg (by omega), if_pos hc]

/-- How a step of an execution leaves an instruction of the program: it falls through to the next one; or it
is a live jump to a reachable destination; or it is a JUMPI with a known condition whose only target is the
next instruction. -/
inductive Leaves (p : Prog) (i : Nat) (d : InstData) (i' : Nat) : Prop
  | falls : i' = i + 1 → d.canFallThrough = true → Leaves p i d i'
  | jumps (dt : InstData) : d.isJump = true → p.insts[i']? = some dt → dt.isReachableJumpdest p.hasDyn = true →
      Leaves p i d i'
  | next : i' = i + 1 → d.isStaticJump = true → d.flags.invalidJump = false → d.flags.multiJump = false →
      d.staticJumpTarget = i + 1 → d.opcode = op.JUMPI → Leaves p i d i'

theorem leaves_of_step {code : Code} {base : List InstData} {ok : Nat → List Word → Prop} {p : Prog}
    (wf : FlowWf code base) (h : Sound code base ok p) (hf : Flagged p) {i i' : Nat} {c c' : List Word}
    (hr : Reach code base ok i c) (hs : Step code base i c i' c') {d : InstData}
    (hd : p.insts[i]? = some d) : Leaves p i d i' := by
  obtain ⟨d1, hd1, hlive⟩ := h.live i c hr
  rw [hd] at hd1; cases hd1
  cases hs with
  | seq hb hh h1 h2 _ =>
    obtain ⟨d0, hd0, he⟩ := h.ev.back hd
    rw [hb] at hd0; cases hd0
    refine .falls rfl (step_not_fall (fun x => hh (he.halts.1 x)) (by rw [he.op]; exact h1) (by rw [he.op]; exact h2))
  | @jump d0 w r t hb hh h1 ht =>
    obtain ⟨d0', hd0, he⟩ := h.ev.back hd
    rw [hb] at hd0; cases hd0
    have ho : d.opcode = op.JUMP := toNat_eq (k := 0x56) (by omega) (by rw [he.op]; exact h1)
    have hj : d.isJump = true := by unfold InstData.isJump; rw [ho]; rfl
    have hn := h.next i _ d hr hd hj (fun x => hh (he.halts.1 x)) (by unfold HasArgs; rw [if_pos ho]; simp)
    rw [compiledNext_jump (by rw [ho]; rintro ⟨x, _⟩; exact absurd x (by decide))] at hn
    rw [evmNext_jump (by rw [he.op]; exact h1)] at hn
    obtain ⟨dt, a, b⟩ := dest_reachable wf h.ev hf hd hlive hj ht (hn.trans ht)
    exact .jumps dt hj a b
  | @taken d0 w b r t hb hh h1 hne ht =>
    obtain ⟨d0', hd0, he⟩ := h.ev.back hd
    rw [hb] at hd0; cases hd0
    have ho : d.opcode = op.JUMPI := toNat_eq (k := 0x57) (by omega) (by rw [he.op]; exact h1)
    have hj : d.isJump = true := by unfold InstData.isJump; rw [ho]; rfl
    have hn := h.next i _ d hr hd hj (fun x => hh (he.halts.1 x)) (by
      unfold HasArgs; split <;> simp)
    rw [compiledNext_taken (by simpa using hne)] at hn
    rw [evmNext_taken (by rw [he.op]; exact h1) (by simpa using hne)] at hn
    obtain ⟨dt, a, b⟩ := dest_reachable wf h.ev hf hd hlive hj ht (hn.trans ht)
    exact .jumps dt hj a b
  | @fall d0 w r hb hh h1 =>
    obtain ⟨d0', hd0, he⟩ := h.ev.back hd
    rw [hb] at hd0; cases hd0
    have ho : d.opcode = op.JUMPI := toNat_eq (k := 0x57) (by omega) (by rw [he.op]; exact h1)
    have hj : d.isJump = true := by unfold InstData.isJump; rw [ho]; rfl
    cases hc : d.hasConstJumpiCondition with
    | false => exact .falls rfl (jumpi_falls (fun x => hh (he.halts.1 x)) (by rw [he.op]; exact h1) hc)
    | true =>
      have hn := h.next i _ d hr hd hj (fun x => hh (he.halts.1 x)) (by
        unfold HasArgs; split <;> simp)
      rw [compiledNext_jump (by rintro ⟨_, x⟩; exact x hc)] at hn
      rw [evmNext_fall (by rw [he.op]; exact h1) rfl] at hn
      cases hi : d.flags.invalidJump with
      | true => rw [hi] at hn; simp at hn
      | false =>
        by_cases ht : code.target w = some (i + 1)
        · obtain ⟨dt, a, b⟩ := dest_reachable wf h.ev hf hd hlive hj ht hn
          exact .jumps dt hj a b
        · cases hm : d.flags.multiJump with
          | true =>
            rw [hi, hm] at hn
            simp only [Bool.false_eq_true, if_false, if_true, Option.filter_eq_some_iff] at hn
            exact absurd hn.1 ht
          | false =>
            cases hs : d.flags.staticJump with
            | true =>
              rw [hi, hm, hs] at hn
              simp only [Bool.false_eq_true, if_false, if_true, Option.some.injEq] at hn
              exact .next rfl (by unfold InstData.isStaticJump; rw [hj, hs]; rfl) hi hm hn ho
            | false =>
              rw [hi, hm, hs] at hn
              simp only [Bool.false_eq_true, if_false] at hn
              exact absurd hn ht

theorem step_in_range {code : Code} {base : List InstData} (wf : FlowWf code base) {i i' : Nat}
    {c c' : List Word} (hs : Step code base i c i' c') : i' < base.length := by
  have hfall : ∀ d, base[i]? = some d → ¬ Halts d → d.opcode.toNat ≠ 0x56 → i + 1 < base.length := by
    intro d hd hh hne
    have hi := (List.getElem?_eq_some_iff.1 hd).1
    by_cases he : i + 1 = base.length
    · rcases wf.last i d hd he with h | h
      · exact absurd h hh
      · exact absurd (by rw [h]; rfl) hne
    · omega
  cases hs with
  | seq hb hh h1 h2 _ => exact hfall _ hb hh h1
  | jump _ _ _ ht => obtain ⟨_, hd, _⟩ := wf.dest _ _ ht; exact (List.getElem?_eq_some_iff.1 hd).1
  | taken _ _ _ _ ht => obtain ⟨_, hd, _⟩ := wf.dest _ _ ht; exact (List.getElem?_eq_some_iff.1 hd).1
  | fall hb hh h1 => exact hfall _ hb hh (by omega)

theorem mark_sound {code : Code} {base : List InstData} {ok : Nat → List Word → Prop} {p : Prog}
    (wf : FlowWf code base) (h : Sound code base ok p) (hf : Flagged p) :
    Sound code base ok { p with insts := markLoop p.hasDyn 0 none p.insts } ∧
    Flagged { p with insts := markLoop p.hasDyn 0 none p.insts } := by
  have hev := evolves_markLoop p.hasDyn p.insts 0 none
  have hsame : ∀ (i : Nat) d d', p.insts[i]? = some d → (markLoop p.hasDyn 0 none p.insts)[i]? = some d' →
      SameJump d d' := by
    intro i d d' hd hd'
    rcases markLoop_get _ _ _ _ i d d' hd hd' with rfl | rfl
    · exact .refl _
    · exact ⟨rfl, rfl, rfl, rfl, rfl, rfl⟩
  refine ⟨h.congr hev (fun i d d' hd hd' _ => hsame i d d' hd hd') (fun _ => rfl) (fun i c hr => ?_), ?_⟩
  · -- no newly marked instruction is visited
    have key : ∀ i d d', p.insts[i]? = some d → d.flags.deadCode = false →
        (markLoop p.hasDyn 0 none p.insts)[i]? = some d' →
        (i = 0 ∨ d.isReachableJumpdest p.hasDyn = true ∨
          (0 < i ∧ LiveAt (markLoop p.hasDyn 0 none p.insts) (i - 1) ∧ ∃ e, p.insts[i - 1]? = some e ∧
            (e.canFallThrough = true ∨ (e.isStaticJump = true ∧ e.staticJumpTarget = i)))) →
        LiveAt (markLoop p.hasDyn 0 none p.insts) i := by
      intro i d d' hd hl hd' hc
      refine ⟨d', hd', ?_⟩
      apply Bool.eq_false_iff.2
      intro hdead
      obtain ⟨a, b, c⟩ := markLoop_new _ _ _ _ i d d' hd hd' hl hdead
      rcases hc with rfl | hc | ⟨hpos, ⟨e', he', hle⟩, e, he, hc⟩
      · exact b rfl rfl
      · rw [a] at hc; simp at hc
      · rcases c hpos with ⟨e2, h1, h2⟩ | ⟨e2, h1, h2, h3⟩
        · rw [he'] at h1; cases h1
          rw [hle] at h2; simp at h2
        · rw [he] at h1; cases h1
          rcases hc with hc | ⟨hc1, hc2⟩
          · rw [hc] at h2; simp at h2
          · exact h3 ⟨hc1, by omega⟩
    induction hr with
    | start hok =>
      obtain ⟨d, hd, hl⟩ := h.live 0 [] (.start hok)
      obtain ⟨d', hd', _⟩ := hev.get hd
      exact key 0 d d' hd hl hd' (.inl rfl)
    | @step i i' c c' hr hs hok ih =>
      obtain ⟨d, hd, hl⟩ := h.live i' c' (.step hr hs hok)
      obtain ⟨d', hd', _⟩ := hev.get hd
      obtain ⟨e, he, _⟩ := h.live i c hr
      refine key i' d d' hd hl hd' ?_
      cases leaves_of_step wf h hf hr hs he with
      | falls h1 h2 => subst h1; exact .inr (.inr ⟨by omega, ih, e, he, .inl h2⟩)
      | jumps dt _ h1 h2 => rw [hd] at h1; cases h1; exact .inr (.inl h2)
      | next h1 h2 _ _ h3 _ => subst h1; exact .inr (.inr ⟨by omega, ih, e, he, .inr ⟨h2, h3⟩⟩)
  · refine ⟨fun i d' hd' hl hj hs => ?_, fun i d' t dt hd' ht hdt hjd => ?_⟩
    · obtain ⟨d, hd, he⟩ := hev.back hd'
      have hsj := hsame i d d' hd hd'
      refine hf.dyn i d hd ?_ (hsj.isJump ▸ hj) (hsj.sta ▸ hs)
      apply Bool.eq_false_iff.2
      intro hc
      rw [he.dead hc] at hl; simp at hl
    · obtain ⟨d, hd, he⟩ := hev.back hd'
      obtain ⟨dt0, hdt0, _⟩ := hev.back hdt
      have hsj := hsame i d d' hd hd'
      have hl := (mem_targetsOf ht).2
      have hl0 : d.flags.deadCode = false := by
        apply Bool.eq_false_iff.2
        intro hc
        rw [he.dead hc] at hl; simp at hl
      have htt : p.targetsOf i d = Prog.targetsOf { p with insts := markLoop p.hasDyn 0 none p.insts } i d' := by
        unfold Prog.targetsOf InstData.isStaticJump InstData.staticJumpTarget
        rw [hsj.isJump, hsj.inv, hsj.mul, hsj.sta, hsj.dat, hl, hl0]
      rcases markLoop_get _ _ _ _ t dt0 dt hdt0 hdt with rfl | rfl
      · exact hf.reach i d t _ hd (htt ▸ ht) hdt0 hjd
      · exact hf.reach i d t dt0 hd (htt ▸ ht) hdt0 hjd

theorem markDead_sound {code : Code} {base : List InstData} {ok : Nat → List Word → Prop} (wf : FlowWf code base)
    (fuel : Nat) : ∀ p : Prog, Sound code base ok p → Flagged p →
      Sound code base ok (markDead fuel p) ∧ Flagged (markDead fuel p) := by
  induction fuel with
  | zero => intro p h hf; exact ⟨h, hf⟩
  | succ n ih =>
    intro p h hf
    rw [markDead]
    dsimp only
    obtain ⟨h1, h2⟩ := mark_sound wf h hf
    split
    · exact ih _ (sound_recompute h1) (flagged_recompute _)
    · exact ⟨h1, h2⟩

/-- Refreshing keeps the program right and brings the flags up to date. -/
theorem refresh_sound {code : Code} {base : List InstData} {ok : Nat → List Word → Prop} (wf : FlowWf code base)
    {p : Prog} (h : Sound code base ok p) : Sound code base ok p.refresh ∧ Flagged p.refresh :=
  markDead_sound wf _ _ (sound_recompute h) (flagged_recompute p)

end Verif
