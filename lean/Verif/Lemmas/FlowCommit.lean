import Verif.Lemmas.FlowDead
import Verif.Lemmas.DedupTotal
/-!
# Committing resolved jumps keeps the program right
-/

namespace Verif
open Spec

/-- What a resolution of jump `i` says is true of the stack `c`. -/
structure ResOk (code : Code) (o : UInt8) (top : Bool) (i : Nat) (c : List Word) (r : JumpRes) : Prop where
  never : r.cond = .alwaysFalse → o = op.JUMPI ∧ c.tail.headD 0 = 0 ∧ r.target = .resolved [i + 1]
  always : r.cond = .alwaysTrue → o = op.JUMPI ∧ c.tail.headD 0 ≠ 0
  resolved : ∀ ts, r.cond ≠ .alwaysFalse → r.target = .resolved ts → ∃ t ∈ ts, code.target (c.headD 0) = some t
  invalid : r.target = .invalid → code.target (c.headD 0) = none
  bottom : r.target = .bottom → top = true

/-- The jump at `i` with this stack is executed. -/
structure Jumps (code : Code) (base : List InstData) (ok : Nat → List Word → Prop) (i : Nat) (c : List Word)
    (d : InstData) : Prop where
  reach : Reach code base ok i c
  get : base[i]? = some d
  jump : d.isJump = true
  runs : ¬ Halts d
  args : HasArgs d c

/-- The destination of a jump that is taken. -/
def Prog.destOf (p : Prog) (code : Code) (i : Nat) (d : InstData) (w : Word) : Option Nat :=
  if d.flags.invalidJump then none
  else if d.flags.multiJump then (code.target w).filter fun t => ((p.multi.lookup i).getD []).contains t
  else if d.flags.staticJump then some d.staticJumpTarget else code.target w

theorem compiledNext_eq (p : Prog) (code : Code) (i : Nat) (d : InstData) (c : List Word) :
    p.compiledNext code i d c = if d.opcode = op.JUMPI ∧ d.flags.constJumpCond = false then
      if c.tail.headD 0 = 0#256 then some (i + 1) else p.destOf code i d (c.headD 0)
      else p.destOf code i d (c.headD 0) := by
  unfold Prog.compiledNext Prog.destOf InstData.hasConstJumpiCondition
  dsimp only
  by_cases ho : d.opcode = op.JUMPI
  · cases hc : d.flags.constJumpCond <;> simp [ho]
  · simp [ho]

theorem jump_cases {d : InstData} (h : d.isJump = true) : d.opcode = op.JUMP ∨ d.opcode = op.JUMPI := by
  unfold InstData.isJump at h
  simpa using h

theorem evmNext_cases {code : Code} {i : Nat} {d : InstData} {c : List Word} (h : d.isJump = true) :
    evmNext code i d c = if d.opcode = op.JUMPI ∧ c.tail.headD 0 = 0#256 then some (i + 1)
      else code.target (c.headD 0) := by
  rcases jump_cases h with h | h
  · rw [evmNext_jump (by rw [h]; rfl), if_neg]
    rw [h]; rintro ⟨x, _⟩; exact absurd x (by decide)
  · by_cases hb : c.tail.headD 0 = 0#256
    · rw [evmNext_fall (by rw [h]; rfl) hb, if_pos ⟨h, hb⟩]
    · rw [evmNext_taken (by rw [h]; rfl) hb, if_neg (fun x => hb x.2)]

/-- A dynamic jump's destination, if it has one, is that of its operand. -/
theorem dest_of_dynamic {p : Prog} {code : Code} {i t : Nat} {d : InstData} {w : Word}
    (hs : d.flags.staticJump = false) (h : p.destOf code i d w = some t) : code.target w = some t := by
  unfold Prog.destOf at h
  split at h
  · simp at h
  · split at h
    · rw [Option.filter_eq_some_iff] at h; exact h.1
    · rw [hs] at h; exact h

/-- Replacing the destination of a jump by the right one keeps it right. -/
theorem commit_dest {p p' : Prog} {code : Code} {i : Nat} {d d' : InstData} {c : List Word} {r : JumpRes}
    {top : Bool} (hj : d.isJump = true) (ho : d'.opcode = d.opcode)
    (hold : p.compiledNext code i d c = evmNext code i d c) (hr : ResOk code d.opcode top i c r)
    (haf : r.cond ≠ .alwaysFalse)
    (hconst : d'.flags.constJumpCond = (r.cond != .unknown || d.flags.constJumpCond))
    (hst : r.cond = .unknown → d.flags.staticJump = false)
    (hdest : p'.destOf code i d' (c.headD 0) = code.target (c.headD 0)) :
    p'.compiledNext code i d' c = evmNext code i d' c := by
  have hj' : d'.isJump = true := by unfold InstData.isJump at hj ⊢; rw [ho]; exact hj
  rw [compiledNext_eq, evmNext_cases hj', hdest, ho]
  rw [compiledNext_eq, evmNext_cases hj] at hold
  by_cases hb : d.opcode = op.JUMPI ∧ c.tail.headD 0 = 0#256
  · rw [if_pos hb]
    rw [if_pos hb] at hold
    have hcu : r.cond = .unknown := by
      cases hc : r.cond with
      | unknown => rfl
      | alwaysTrue => exact absurd hb.2 (hr.always hc).2
      | alwaysFalse => exact absurd hc haf
    rw [hcu] at hconst
    simp only [bne_self_eq_false, Bool.false_or] at hconst
    rw [hconst]
    by_cases hc : d.flags.constJumpCond = false
    · rw [if_pos ⟨hb.1, hc⟩, if_pos hb.2]
    · rw [if_neg (fun x => hc x.2)]
      rw [if_neg (fun x => hc x.2)] at hold
      exact dest_of_dynamic (hst hcu) hold
  · rw [if_neg hb]
    by_cases hJ : d.opcode = op.JUMPI ∧ d'.flags.constJumpCond = false
    · rw [if_pos hJ, if_neg (fun x => hb ⟨hJ.1, x⟩)]
    · rw [if_neg hJ]

/-- Only recording the condition keeps a jump right. -/
theorem commit_cond {p p' : Prog} {code : Code} {i : Nat} {d d' : InstData} {c : List Word} {r : JumpRes}
    {top : Bool} (hj : d.isJump = true) (ho : d'.opcode = d.opcode)
    (hold : p.compiledNext code i d c = evmNext code i d c) (hr : ResOk code d.opcode top i c r)
    (haf : r.cond ≠ .alwaysFalse)
    (hconst : d'.flags.constJumpCond = (r.cond != .unknown || d.flags.constJumpCond))
    (hdest : p'.destOf code i d' (c.headD 0) = p.destOf code i d (c.headD 0)) :
    p'.compiledNext code i d' c = evmNext code i d' c := by
  rw [evmNext_congr ho, ← hold, compiledNext_eq, compiledNext_eq, hdest, ho]
  cases hc : r.cond with
  | unknown =>
    rw [hc] at hconst
    simp only [bne_self_eq_false, Bool.false_or] at hconst
    rw [hconst]
  | alwaysFalse => exact absurd hc haf
  | alwaysTrue =>
    have hb : ¬ c.tail.headD 0 = 0#256 := (hr.always hc).2
    rw [if_neg hb, ite_self, ite_self]

theorem commitOne_other {p : Prog} {top : Bool} {i j : Nat} {r : JumpRes} (h : j ≠ i) :
    (p.commitOne top i r).insts[j]? = p.insts[j]? ∧ (p.commitOne top i r).multi.lookup j = p.multi.lookup j := by
  have hm : ∀ (q : Prog) f, (q.modify i f).insts[j]? = q.insts[j]? := by
    intro q f
    show (q.insts.modify i f)[j]? = _
    rw [List.getElem?_modify]
    simp [Ne.symm h]
  have hq : ∀ b : Bool, ∀ f, (if b = true then p.modify i f else p).insts[j]? = p.insts[j]? ∧
      (if b = true then p.modify i f else p).multi = p.multi := by
    intro b f
    cases b
    · exact ⟨rfl, rfl⟩
    · exact ⟨hm _ _, rfl⟩
  unfold Prog.commitOne
  dsimp only
  split
  · exact ⟨rfl, rfl⟩
  · obtain ⟨h1, h2⟩ := hq (r.cond != .unknown) fun d => { d with flags := { d.flags with constJumpCond := true } }
    revert h1 h2
    generalize (if (r.cond != .unknown) = true then
        p.modify i fun d => { d with flags := { d.flags with constJumpCond := true } } else p) = q
    intro h1 h2
    split
    · split
      · refine ⟨(hm _ _).trans h1, ?_⟩
        dsimp only
        rw [lookup_multiRemove, if_neg h, h2]
      · refine ⟨(hm _ _).trans h1, ?_⟩
        dsimp only
        rw [lookup_multiInsert, if_neg h, h2]
    · refine ⟨(hm _ _).trans h1, ?_⟩
      dsimp only
      rw [lookup_multiRemove, if_neg h, h2]
    · split
      · refine ⟨(hm _ _).trans h1, ?_⟩
        dsimp only
        rw [lookup_multiRemove, if_neg h, h2]
      · exact ⟨h1, by rw [h2]⟩
    · exact ⟨h1, by rw [h2]⟩

/-- Committing one true resolution keeps the jump right. -/
theorem commitOne_at {p : Prog} {code : Code} {top : Bool} {i : Nat} {r : JumpRes} {d d' : InstData}
    {c : List Word} (hd : p.insts[i]? = some d) (hd' : (p.commitOne top i r).insts[i]? = some d')
    (hj : d.isJump = true) (hold : p.compiledNext code i d c = evmNext code i d c)
    (hr : ResOk code d.opcode top i c r) :
    (p.commitOne top i r).compiledNext code i d' c = evmNext code i d' c := by
  have hm : ∀ (q : Prog) f e, q.insts[i]? = some e → (q.modify i f).insts[i]? = some (f e) := by
    intro q f e he
    show (q.insts.modify i f)[i]? = _
    rw [List.getElem?_modify, he]
    simp
  revert hd'
  unfold Prog.commitOne
  dsimp only
  split
  · intro hd'
    rw [hd] at hd'; cases hd'; exact hold
  · rename_i hws
    rw [hd] at hws
    simp only [Option.any_some, Bool.and_eq_true, beq_iff_eq, not_and] at hws
    have hst : r.cond = .unknown → d.flags.staticJump = false := by
      intro h
      apply Bool.eq_false_iff.2
      intro h'; exact hws h' h
    have hq : ∃ e, (if (r.cond != .unknown) = true then
        p.modify i fun d => { d with flags := { d.flags with constJumpCond := true } } else p).insts[i]? = some e ∧
        (if (r.cond != .unknown) = true then
        p.modify i fun d => { d with flags := { d.flags with constJumpCond := true } } else p).multi = p.multi ∧
        e = { d with flags := { d.flags with constJumpCond := (r.cond != .unknown || d.flags.constJumpCond) } } := by
      split
      · rename_i h
        refine ⟨_, hm _ _ d hd, rfl, ?_⟩
        rw [h]; rfl
      · rename_i h
        refine ⟨d, hd, rfl, ?_⟩
        simp only [Bool.not_eq_true] at h
        rw [h]; rfl
    revert hq
    generalize (if (r.cond != .unknown) = true then
        p.modify i fun d => { d with flags := { d.flags with constJumpCond := true } } else p) = q
    rintro ⟨e, he, hmul, rfl⟩
    split
    · rename_i ts hts
      split
      · rename_i t
        intro hd'
        dsimp only at hd'
        rw [hm _ _ _ he] at hd'; cases hd'
        by_cases hc : r.cond = .alwaysFalse
        · obtain ⟨h1, h2, h3⟩ := hr.never hc
          rw [hts] at h3
          simp only [JumpTarget.resolved.injEq, List.cons.injEq, and_true] at h3
          refine Eq.trans (b := some (i + 1)) ?_ ?_
          · rw [compiledNext_eq, if_neg (by simp [hc])]
            simp [Prog.destOf, InstData.staticJumpTarget, h3]
          · rw [evmNext_cases (by unfold InstData.isJump at hj ⊢; exact hj), if_pos ⟨h1, h2⟩]
        · obtain ⟨t', h1, h2⟩ := hr.resolved [t] hc hts
          rw [List.mem_singleton] at h1; subst h1
          refine commit_dest (r := r) hj rfl hold hr hc rfl hst ?_
          simp only [Prog.destOf, InstData.staticJumpTarget, h2, Bool.false_eq_true, if_false, if_true]
      · rename_i hne
        intro hd'
        dsimp only at hd'
        rw [hm _ _ _ he] at hd'; cases hd'
        have haf : r.cond ≠ .alwaysFalse := by
          intro hc
          have h3 := (hr.never hc).2.2
          rw [hts] at h3
          exact hne (i + 1) (JumpTarget.resolved.inj h3)
        obtain ⟨t, h1, h2⟩ := hr.resolved ts haf hts
        refine commit_dest (r := r) hj rfl hold hr haf rfl hst ?_
        unfold Prog.destOf
        dsimp only
        rw [lookup_multiInsert, if_pos rfl, h2]
        simp [Option.filter_eq_some_iff, h1]
    · rename_i hts
      intro hd'
      dsimp only at hd'
      rw [hm _ _ _ he] at hd'; cases hd'
      have haf : r.cond ≠ .alwaysFalse := by
        intro hc
        have h3 := (hr.never hc).2.2
        rw [hts] at h3; simp at h3
      refine commit_dest (r := r) hj rfl hold hr haf rfl hst ?_
      rw [hr.invalid hts]
      simp [Prog.destOf]
    · rename_i hts
      have htop := hr.bottom hts
      rw [htop]
      simp only [Bool.not_true, Bool.false_eq_true, if_false]
      intro hd'
      rw [he] at hd'; cases hd'
      have haf : r.cond ≠ .alwaysFalse := by
        intro hc
        have h3 := (hr.never hc).2.2
        rw [hts] at h3; simp at h3
      refine commit_cond (r := r) hj rfl hold hr haf rfl ?_
      unfold Prog.destOf
      rw [hmul]
      rfl
    · rename_i hts
      intro hd'
      rw [he] at hd'; cases hd'
      have haf : r.cond ≠ .alwaysFalse := by
        intro hc
        have h3 := (hr.never hc).2.2
        rw [hts] at h3; simp at h3
      refine commit_cond (r := r) hj rfl hold hr haf rfl ?_
      unfold Prog.destOf
      rw [hmul]
      rfl

/-- Committing one true resolution keeps the flags of the jump true. -/
theorem commitOne_says {p : Prog} {code : Code} {top : Bool} {i : Nat} {r : JumpRes} {d d' : InstData}
    {c : List Word} (hd : p.insts[i]? = some d) (hd' : (p.commitOne top i r).insts[i]? = some d')
    (hold : FlagsOk p code i d c) (hr : ResOk code d.opcode top i c r) :
    FlagsOk (p.commitOne top i r) code i d' c := by
  have hm : ∀ (q : Prog) f e, q.insts[i]? = some e → (q.modify i f).insts[i]? = some (f e) := by
    intro q f e he
    show (q.insts.modify i f)[i]? = _
    rw [List.getElem?_modify, he]
    simp
  revert hd'
  unfold Prog.commitOne
  dsimp only
  split
  · intro hd'
    rw [hd] at hd'; cases hd'; exact hold
  · have hq : ∃ e, (if (r.cond != .unknown) = true then
        p.modify i fun d => { d with flags := { d.flags with constJumpCond := true } } else p).insts[i]? = some e ∧
        (if (r.cond != .unknown) = true then
        p.modify i fun d => { d with flags := { d.flags with constJumpCond := true } } else p).multi = p.multi ∧
        e = { d with flags := { d.flags with constJumpCond := (r.cond != .unknown || d.flags.constJumpCond) } } := by
      split
      · rename_i h
        refine ⟨_, hm _ _ d hd, rfl, ?_⟩
        rw [h]; rfl
      · rename_i h
        refine ⟨d, hd, rfl, ?_⟩
        simp only [Bool.not_eq_true] at h
        rw [h]; rfl
    revert hq
    generalize (if (r.cond != .unknown) = true then
        p.modify i fun d => { d with flags := { d.flags with constJumpCond := true } } else p) = q
    rintro ⟨e, he, hmul, rfl⟩
    have keep : FlagsOk q code i
        { d with flags := { d.flags with constJumpCond := (r.cond != .unknown || d.flags.constJumpCond) } } c := by
      refine ⟨?_, hold.invalid, fun a b e => ?_⟩
      · rw [hmul]; exact hold.multi
      · rcases hold.single a b e with h | ⟨h1, h2, h3, h4⟩
        · exact .inl h
        · refine .inr ⟨h1, ?_, h3, h4⟩
          dsimp only
          rw [h2, Bool.or_true]
    split
    · rename_i ts hts
      split
      · rename_i t
        intro hd'
        dsimp only at hd'
        rw [hm _ _ _ he] at hd'; cases hd'
        refine ⟨fun h => (by cases h), fun h => (by cases h), fun _ _ _ => ?_⟩
        by_cases hc : r.cond = .alwaysFalse
        · obtain ⟨h1, h2, h3⟩ := hr.never hc
          rw [hts] at h3
          simp only [JumpTarget.resolved.injEq, List.cons.injEq, and_true] at h3
          exact .inr ⟨h1, by dsimp only; rw [hc]; rfl, h2, h3⟩
        · obtain ⟨t', h1, h2⟩ := hr.resolved [t] hc hts
          rw [List.mem_singleton] at h1; subst h1
          exact .inl h2
      · rename_i hne
        intro hd'
        dsimp only at hd'
        rw [hm _ _ _ he] at hd'; cases hd'
        have haf : r.cond ≠ .alwaysFalse := by
          intro hc
          have h3 := (hr.never hc).2.2
          rw [hts] at h3
          exact hne (i + 1) (JumpTarget.resolved.inj h3)
        obtain ⟨t, h1, h2⟩ := hr.resolved ts haf hts
        refine ⟨fun _ => ⟨t, ?_, h2⟩, fun h => (by cases h), fun _ h => (by cases h)⟩
        dsimp only
        rw [lookup_multiInsert, if_pos rfl]
        exact h1
    · rename_i hts
      intro hd'
      dsimp only at hd'
      rw [hm _ _ _ he] at hd'; cases hd'
      exact ⟨fun h => (by cases h), fun _ => hr.invalid hts, fun _ _ h => (by cases h)⟩
    · rename_i hts
      have htop := hr.bottom hts
      rw [htop]
      simp only [Bool.not_true, Bool.false_eq_true, if_false]
      intro hd'
      rw [he] at hd'; cases hd'
      exact keep
    · intro hd'
      rw [he] at hd'; cases hd'
      exact keep

theorem live_of_evolves {l l' : List InstData} (hev : Evolves l l')
    (hdead : ∀ (i : Nat) d d', l[i]? = some d → l'[i]? = some d' → d'.flags.deadCode = d.flags.deadCode) {i : Nat}
    (h : LiveAt l i) : LiveAt l' i := by
  obtain ⟨d, hd, hl⟩ := h
  obtain ⟨d', hd', _⟩ := hev.get hd
  exact ⟨d', hd', (hdead i d d' hd hd').trans hl⟩

theorem commitOne_dead {p : Prog} {top : Bool} {i j : Nat} {r : JumpRes} {d d' : InstData}
    (hd : p.insts[j]? = some d) (hd' : (p.commitOne top i r).insts[j]? = some d') :
    d'.flags.deadCode = d.flags.deadCode := by
  have hm : ∀ (q : Prog) f, (∀ e : InstData, (f e).flags.deadCode = e.flags.deadCode) → ∀ e e',
      q.insts[j]? = some e → (q.modify i f).insts[j]? = some e' → e'.flags.deadCode = e.flags.deadCode := by
    intro q f hf e e' he he'
    have : (q.insts.modify i f)[j]? = some e' := he'
    rw [List.getElem?_modify, he, Option.map_eq_map, Option.map_some] at this
    have := Option.some.inj this
    subst this
    split
    · exact hf e
    · rfl
  revert hd'
  unfold Prog.commitOne
  dsimp only
  split
  · intro hd'; rw [hd] at hd'; cases hd'; rfl
  · have hq : ∃ e, (if (r.cond != .unknown) = true then
        p.modify i fun d => { d with flags := { d.flags with constJumpCond := true } } else p).insts[j]? = some e ∧
        e.flags.deadCode = d.flags.deadCode := by
      split
      · have hl : j < (p.modify i fun d => { d with flags := { d.flags with constJumpCond := true } }).insts.length := by
          show j < (p.insts.modify i _).length
          rw [List.length_modify]; exact (List.getElem?_eq_some_iff.1 hd).1
        exact ⟨_, List.getElem?_eq_getElem hl, hm p _ (by intro e; rfl) d _ hd (List.getElem?_eq_getElem hl)⟩
      · exact ⟨d, hd, rfl⟩
    revert hq
    generalize (if (r.cond != .unknown) = true then
        p.modify i fun d => { d with flags := { d.flags with constJumpCond := true } } else p) = q
    rintro ⟨e, he, hde⟩
    rw [← hde]
    split
    · split
      · exact hm q _ (by intro e; rfl) e d' he
      · exact hm q _ (by intro e; rfl) e d' he
    · exact hm q _ (by intro e; rfl) e d' he
    · split
      · exact hm q _ (by intro e; rfl) e d' he
      · intro hd'; rw [he] at hd'; cases hd'; rfl
    · intro hd'; rw [he] at hd'; cases hd'; rfl

theorem commitOne_sound {code : Code} {base : List InstData} {ok : Nat → List Word → Prop} {p : Prog}
    (h : Sound code base ok p) {top : Bool} {i : Nat} {r : JumpRes}
    (hat : ∀ d, p.insts[i]? = some d → d.isJump = true)
    (hr : ∀ c d, Jumps code base ok i c d → ResOk code d.opcode top i c r) :
    Sound code base ok (p.commitOne top i r) := by
  have hev := evolves_commitOne p top i r hat
  refine ⟨h.ev.trans hev, fun j c hj => live_of_evolves hev (fun k d d' => commitOne_dead) (h.live j c hj),
    fun j c d' hreach hd' hj hh ha => ?_, fun j c d' hreach hd' hj hh ha => ?_⟩ <;>
  obtain ⟨d, hd, he⟩ := hev.back hd'
  · have hjd : d.isJump = true := he.isJump ▸ hj
    have hhd : ¬ Halts d := fun x => hh (he.halts.2 x)
    have had := he.hasArgs.1 ha
    have hold := h.next j c d hreach hd hjd hhd had
    by_cases hji : j = i
    · subst hji
      obtain ⟨d0, hd0, he0⟩ := h.ev.back hd
      have hr' := hr c d0 ⟨hreach, hd0, he0.isJump ▸ hjd, fun x => hhd (he0.halts.2 x), he0.hasArgs.1 had⟩
      rw [← he0.op] at hr'
      exact commitOne_at hd hd' hjd hold hr'
    · obtain ⟨h1, h2⟩ := commitOne_other (p := p) (top := top) (r := r) hji
      rw [h1, hd] at hd'; cases hd'
      rw [compiledNext_congr (.refl _) h2]
      exact hold
  · have hjd : d.isJump = true := he.isJump ▸ hj
    have hhd : ¬ Halts d := fun x => hh (he.halts.2 x)
    have had := he.hasArgs.1 ha
    have hold := h.says j c d hreach hd hjd hhd had
    by_cases hji : j = i
    · subst hji
      obtain ⟨d0, hd0, he0⟩ := h.ev.back hd
      have hr' := hr c d0 ⟨hreach, hd0, he0.isJump ▸ hjd, fun x => hhd (he0.halts.2 x), he0.hasArgs.1 had⟩
      rw [← he0.op] at hr'
      exact commitOne_says hd hd' hold hr'
    · obtain ⟨h1, h2⟩ := commitOne_other (p := p) (top := top) (r := r) hji
      rw [h1, hd] at hd'; cases hd'
      exact hold.congr (.refl _) h2

/-- Committing true resolutions keeps the program right. -/
theorem commit_sound {code : Code} {base : List InstData} {ok : Nat → List Word → Prop} {p : Prog}
    (h : Sound code base ok p) (res : List (Nat × JumpRes)) (hat : AtJumps p.insts res)
    (hr : ∀ x ∈ res, ∀ c d, Jumps code base ok x.1 c d →
      ResOk code d.opcode (res.any fun r => r.2.target == .top) x.1 c x.2) :
    Sound code base ok (p.commit res) := by
  have fold : ∀ (l : List (Nat × JumpRes)) (top : Bool) (p : Prog), Sound code base ok p → AtJumps p.insts l →
      (∀ x ∈ l, ∀ c d, Jumps code base ok x.1 c d → ResOk code d.opcode top x.1 c x.2) →
      Sound code base ok (l.foldl (fun p r => p.commitOne top r.1 r.2) p) := by
    intro l top
    induction l with
    | nil => intro p h _ _; exact h
    | cons x l ih =>
      intro p h hat hr
      refine ih _ (commitOne_sound h (hat x List.mem_cons_self) (hr x List.mem_cons_self)) (fun y hy d hd => ?_)
        (fun y hy => hr y (List.mem_cons_of_mem _ hy))
      obtain ⟨d0, g1, g2⟩ := (evolves_commitOne p top x.1 x.2 (hat x List.mem_cons_self)).back hd
      rw [g2.isJump]
      exact hat y (List.mem_cons_of_mem _ hy) d0 g1
  have h1 := fold res (res.any fun r => r.2.target == .top) p h hat hr
  refine h1.congr (evolves_recomputeReachable _) (fun i d d' hd hd' hj => ?_) (fun _ => rfl)
    (fun i c hr => recomputeReachable_dead (h1.live i c hr))
  rw [recomputeReachable_same hd hd' hj]
  exact .refl _

end Verif
