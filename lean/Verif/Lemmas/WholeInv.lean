import Verif.Lemmas.WholeRun
/-!
# The simulation invariant of whole programs
-/

namespace Verif
open Spec
variable {F : Type}

/-- The code of the instructions from `s` up to `i`, in a block entered as the `k`-th instruction. -/
def Compiled.part (C : Compiled) (env : Env F) (clob : Nat → Int → Word) (k s i : Nat) : List (TInst (Option F)) :=
  (C.prog.slice s (i - s)).map (toT C.code C.ai (actOf C.code C.prog env k s) (clobAt clob k s))

/-- The EVM is at instruction `i` of block `b` (or at its end), which the compiled program has entered after `n`
blocks; it has executed the block up to there. -/
structure Part (C : Compiled) (env : Env F) (clob : Nat → Int → Word) (mem : Int → Word) (b : Nat × Nat)
    (n k0 : Nat) (c0 : List Word) (cx : SCx (Option F)) (k i : Nat) (c : List Word) (tr : List (Obs F)) : Prop where
  blk : b ∈ C.prog.blocks
  le : b.1 ≤ i
  lt : i ≤ b.2
  run : C.run env clob mem n = .running k0 b.1 cx
  holds : Holds cx c0
  k : k = k0 + (i - b.1)
  ok : RunOk (C.part env clob k0 b.1 i) c0
  low : Low (C.part env clob k0 b.1 i) c0
  stack : Spec.run (C.part env clob k0 b.1 i) c0 = c
  obs : shown (runEvents (C.part env clob k0 b.1 i) c0) ++ shown cx.trace = tr
  snap : ∀ x ∈ C.prog.slice b.1 (i - b.1), FullSnap C.ai x
  imm : ∀ x ∈ C.prog.slice b.1 (i - b.1), badImm C.code x = false

section part
variable {C : Compiled} {env : Env F} {clob : Nat → Int → Word} {mem : Int → Word} {b : Nat × Nat}
  {n k0 : Nat} {c0 : List Word} {cx : SCx (Option F)} {k i : Nat} {c c' : List Word} {tr obs : List (Obs F)}
  {d : InstData}

theorem part_self {s : Nat} : C.part env clob k s s = [] := by
  unfold Compiled.part Prog.slice
  simp

/-- At the start of a block. -/
theorem part_start (hb : b ∈ C.prog.blocks) (hr : C.run env clob mem n = .running k b.1 cx) (hh : Holds cx c)
    (hl : c.length ≤ 1024) : Part C env clob mem b n k c cx k b.1 c (shown cx.trace) := by
  have hs : C.prog.slice b.1 (b.1 - b.1) = [] := by unfold Prog.slice; simp
  refine ⟨hb, Nat.le_refl _, ?_, hr, hh, by omega, ?_, ?_, ?_, ?_, ?_, ?_⟩
  · have := C.prog.blocks_ok.range b hb; omega
  · rw [part_self]; trivial
  · rw [part_self]; exact low_nil hl
  · rw [part_self]; rfl
  · rw [part_self]; simp [runEvents, shown]
  · rw [hs]; simp
  · rw [hs]; simp

/-- One more instruction of the block. -/
theorem Part.push (P : Part C env clob mem b n k0 c0 cx k i c tr) (hi : i < b.2) (hd : C.prog.insts[i]? = some d)
    (hf : Fit (toT C.code C.ai (actOf C.code C.prog env k0 b.1) (clobAt clob k0 b.1) (i, d)) c c' obs) (hl : c'.length ≤ 1024)
    (hs : FullSnap C.ai (i, d)) (hm : badImm C.code (i, d) = false) :
    Part C env clob mem b n k0 c0 cx (k + 1) (i + 1) c' (obs ++ tr) := by
  have hle := P.le
  have hsl : C.prog.slice b.1 (i + 1 - b.1) = C.prog.slice b.1 (i - b.1) ++ [(i, d)] := by
    have := slice_succ (p := C.prog) (s := b.1) (n := i - b.1) (d := d) (by rw [show b.1 + (i - b.1) = i by omega]; exact hd)
    rw [show b.1 + (i - b.1) = i by omega] at this
    rw [← this, show i + 1 - b.1 = i - b.1 + 1 by omega]
  have hpt : C.part env clob k0 b.1 (i + 1) = C.part env clob k0 b.1 i ++
      [toT C.code C.ai (actOf C.code C.prog env k0 b.1) (clobAt clob k0 b.1) (i, d)] := by
    unfold Compiled.part
    rw [hsl, List.map_append]; rfl
  have hstk := P.stack
  refine ⟨P.blk, by omega, hi, P.run, P.holds, by rw [P.k]; omega, ?_, ?_, ?_, ?_, ?_, ?_⟩
  · rw [hpt, runOk_append, hstk]
    exact ⟨P.ok, hf.ok, trivial⟩
  · rw [hpt]
    refine low_snoc P.low ?_
    rw [hstk, hf.next]; exact hl
  · rw [hpt, run_append, hstk]; exact hf.next
  · rw [hpt, runEvents_append, hstk]
    simp only [runEvents, List.nil_append]
    rw [shown_append, hf.obs, List.append_assoc, P.obs]
  · rw [hsl]
    intro x hx
    rcases List.mem_append.1 hx with hx | hx
    · exact P.snap x hx
    · rw [List.mem_singleton.1 hx]; exact hs
  · rw [hsl]
    intro x hx
    rcases List.mem_append.1 hx with hx | hx
    · exact P.imm x hx
    · rw [List.mem_singleton.1 hx]; exact hm

theorem badImm_mark {code : Code} {x : Nat × InstData} {m : Bool} :
    badImm code (x.1, mark m x.2) = badImm code x := by
  cases m <;> rfl

/-- The block has been executed up to its last instruction, which is executed too. -/
theorem Part.leave {base : List InstData} {ok : Nat → List Word → Prop} {o : WOpts} (G : GoodC base ok o C)
    (hw : WorldX C.ai base env) (P : Part C env clob mem b n k0 c0 cx k i c tr) (hi : i + 1 = b.2)
    (hd : C.prog.insts[i]? = some d)
    (hf : Fit (toT C.code C.ai (actOf C.code C.prog env k0 b.1) (clobAt clob k0 b.1) (i, d)) c c' obs) (hl : c'.length ≤ 1024)
    (hs : FullSnap C.ai (i, d)) (hm : badImm C.code (i, d) = false) :
    ∃ l' cx', C.run env clob mem (n + 1) = C.leave k0 { start := b.1, stop := b.2, insts := l' } cx' ∧
      shown cx'.trace = obs ++ tr ∧ cx'.lenVar = c'.length ∧
      ((o.dse = true → o.inspect = true ∨ staysInCall d) → Holds cx' c') ∧
      (∀ rt j rc, d.stackIo.2 = 0 → lowerOf C.code C.ai i d = .branch rt j rc →
        cx'.trace.head? = some (.branched (if rt then c[0]? else none) (if j && rc then c[1]? else none))) := by
  have P' := P.push (by omega) hd hf hl hs hm
  rw [hi] at P'
  have hle := P.le
  have hsl : C.prog.blockInsts b = C.prog.slice b.1 (i - b.1) ++ [(i, d)] := by
    have := slice_succ (p := C.prog) (s := b.1) (n := i - b.1) (d := d) (by rw [show b.1 + (i - b.1) = i by omega]; exact hd)
    rw [show b.1 + (i - b.1) = i by omega] at this
    unfold Prog.blockInsts
    rw [← this, show b.2 - b.1 = i - b.1 + 1 by omega]
  have hlast : (C.prog.blockInsts b).getLast? = some (i, d) := by rw [hsl]; simp
  obtain ⟨l', he, hfind⟩ := G.find P.blk
  have hw' := G.world hw
  have hwf : ∀ x ∈ C.prog.blockInsts b, Wf C.code x := fun x hx => G.inst x.1 x.2 (mem_slice hx).1
  obtain ⟨cx', e1, e2, e3, e4, e5, e6, e7, e8⟩ := checked_block o C.spec (st := C.ai)
    (act := actOf C.code C.prog env k0 b.1) (clob := clobAt clob k0 b.1) hwf P'.snap
    (fun x hx hso args => by
      rw [actOf_snd]
      exact hw'.quiet _ _ _ _ (mem_slice hx).1 (stackOnly_mute _ hso))
    he P'.ok P'.low P'.holds
  have himm : l'.findIdx? (badImm C.code) = none := by
    rw [List.findIdx?_eq_none_iff]
    intro x hx
    obtain ⟨j, hj⟩ := List.mem_iff_getElem?.1 hx
    obtain ⟨y, m, h1, h2, _⟩ := e6.at_ j x hj
    rw [h2, badImm_mark]
    exact P'.imm y (List.mem_of_getElem? h1)
  have hrun : Spec.run ((C.prog.blockInsts b).map (toT C.code C.ai (actOf C.code C.prog env k0 b.1) (clobAt clob k0 b.1))) c0 = c' :=
    P'.stack
  refine ⟨l', cx', ?_, ?_, ?_, ?_, ?_⟩
  · show (match C.run env clob mem n with | .running k i cx => C.block env clob k i cx | o => o) = _
    rw [P.run]
    show C.block env clob k0 b.1 cx = _
    unfold Compiled.block
    rw [hfind]
    dsimp only
    rw [himm]
    dsimp only
    unfold Compiled.secs
    dsimp only
    rw [e1]
  · have := congrArg shown e2
    rw [shown_append, shown_visible, shown_visible, shown_visible] at this
    rw [this]
    exact P'.obs
  · rw [e3, hrun]
  · intro ht
    rw [← hrun]
    refine e8 fun hdse => term_lives ?_
    rcases ht hdse with h | h
    · exact .inl h
    · right
      intro p hp
      rw [hlast] at hp
      cases hp
      exact h
  · intro rt j rc ho hlow
    rw [e4]
    refine branch_head e6 e7 (fun p hp => (hwf p hp).noop) e5 hlast hlow ho ?_ _
    rw [hsl, List.dropLast_concat]
    exact P.stack.symm

end part

theorem step_evmNext {code : Code} {base : List InstData} {i i' : Nat} {c c' : List Word}
    (hs : Step code base i c i' c') {d0 d : InstData} (h0 : base[i]? = some d0) (he : d.opcode = d0.opcode)
    (hj : d.isJump = true) : evmNext code i d c = some i' ∧ HasArgs d c := by
  unfold InstData.isJump at hj
  rw [he] at hj
  simp only [Bool.or_eq_true, beq_iff_eq] at hj
  cases hs with
  | seq hb _ h1 h2 _ =>
    rw [h0] at hb; cases hb
    rcases hj with hj | hj
    · exact absurd (by rw [hj]; rfl) h1
    · exact absurd (by rw [hj]; rfl) h2
  | @jump d1 w r t hb _ h1 ht =>
    rw [h0] at hb; cases hb
    refine ⟨by rw [evmNext_jump (by rw [he]; exact h1)]; exact ht, ?_⟩
    have ho : d.opcode = op.JUMP := toNat_eq (k := 0x56) (by omega) (by rw [he]; exact h1)
    unfold HasArgs; rw [if_pos ho]; simp
  | @taken d1 w x r t hb _ h1 hne ht =>
    rw [h0] at hb; cases hb
    refine ⟨by rw [evmNext_taken (by rw [he]; exact h1) (by simpa using hne)]; exact ht, ?_⟩
    unfold HasArgs; split <;> simp
  | @fall d1 w r hb _ h1 =>
    rw [h0] at hb; cases hb
    refine ⟨evmNext_fall (by rw [he]; exact h1) rfl, ?_⟩
    unfold HasArgs; split <;> simp

/-- The block after `b`, if the instruction there is live. -/
theorem next_block {p : Prog} {b : Nat × Nat} (hb : b ∈ p.blocks) (hl : LiveAt p.insts b.2) :
    ∃ b' ∈ p.blocks, b'.1 = b.2 := by
  obtain ⟨b', hb', r1, r2⟩ := p.blocks_ok.cover b.2 (by omega) hl
  refine ⟨b', hb', ?_⟩
  rcases Nat.lt_or_ge b'.1 b.2 with hx | hx
  · exfalso
    have hrange := p.blocks_ok.range b hb
    obtain ⟨k, hk, rfl⟩ := List.getElem_of_mem hb
    obtain ⟨k', hk', rfl⟩ := List.getElem_of_mem hb'
    rcases Nat.lt_trichotomy k k' with h1 | h1 | h1
    · have := p.blocks_lt (List.getElem?_eq_getElem hk) (List.getElem?_eq_getElem hk') h1; omega
    · subst h1; omega
    · have := p.blocks_lt (List.getElem?_eq_getElem hk') (List.getElem?_eq_getElem hk) h1; omega
  · omega

section inv
variable {base : List InstData} {ok : Nat → List Word → Prop} {o : WOpts} {C : Compiled} (G : GoodC base ok o C)
  {env : Env F} {clob : Nat → Int → Word} {mem : Int → Word}
include G

/-- A jump ends its block. -/
theorem GoodC.jump_last {i : Nat} {d : InstData} {b : Nat × Nat} (hb : b ∈ C.prog.blocks) (h1 : b.1 ≤ i) (h2 : i < b.2)
    (hd : C.prog.insts[i]? = some d) (hl : d.flags.deadCode = false) (hj : d.isJump = true) : i + 1 = b.2 := by
  rcases Nat.lt_or_ge (i + 1) b.2 with hlt | hge
  · have := C.prog.blocks_ok.inside b hb (i + 1) (by omega) hlt
    rw [live_not_leader hd hl hj] at this
    cases this
  · omega

theorem GoodC.jump_facts {i : Nat} {d : InstData} (hd : C.prog.insts[i]? = some d) (hh : ¬ Halts d)
    (hj : d.isJump = true) : (d.flags.disabled || d.flags.unknown) = false ∧
      d.stackIo = (if d.opcode == op.JUMPI then (2, 0) else (1, 0)) ∧
      lowerOf C.code C.ai i d = .branch (!d.flags.invalidJump && (d.flags.multiJump || !d.flags.staticJump))
          (d.opcode == op.JUMPI) (d.opcode == op.JUMPI && !d.hasConstJumpiCondition) := by
  have hoff := not_halts_off hh
  have hio := jump_io ((G.inst i d hd).io hoff)
  refine ⟨hoff, ?_, ?_⟩
  · have hj' := hj
    unfold InstData.isJump at hj'
    simp only [Bool.or_eq_true, beq_iff_eq] at hj'
    rcases hj' with h | h
    · rw [if_neg (by rw [h]; decide)]; exact hio.1 h
    · rw [if_pos (by rw [h]; rfl)]; exact hio.2 h
  · unfold lowerOf
    simp only [hoff, hj, Bool.false_eq_true, if_false, if_true]

/-- A step of the EVM inside a block, or out of it. -/
theorem GoodC.inv_step (hw : WorldX C.ai base env) {k i i' : Nat} {c c' : List Word} {tr : List (Obs F)} {d0 : InstData}
    {b : Nat × Nat} {n k0 : Nat} {c0 : List Word} {cx : SCx (Option F)}
    (P : Part C env clob mem b n k0 c0 cx k i c tr) (hlt : i < b.2)
    (hreach : Reach C.code base ok i c) (h0 : base[i]? = some d0) (hs : Step C.code base i c i' c')
    (hf : Follows C.code env k i d0 c c') (hl : c'.length ≤ 1024) (hok : ok i' c') :
    (i' = i + 1 ∧ i' < b.2 ∧ Part C env clob mem b n k0 c0 cx (k + 1) i' c' (observed env k i d0 c ++ tr)) ∨
    (i + 1 = b.2 ∧ Part C env clob mem b n k0 c0 cx (k + 1) b.2 c' (observed env k i d0 c ++ tr) ∧
      ∃ b' cx', b' ∈ C.prog.blocks ∧ b'.1 = i' ∧ C.run env clob mem (n + 1) = .running (k + 1) i' cx' ∧
        Holds cx' c' ∧ shown cx'.trace = observed env k i d0 c ++ tr) := by
  obtain ⟨d, hd, hlive⟩ := G.sound.live i c hreach
  have he := G.sound.ev.inst _ _ _ h0 hd
  obtain ⟨hh, _, _⟩ := step_effect G.wf G.sound.ev hs hd
  have hk := P.k
  rw [hk] at hf
  obtain ⟨fit, hsn, him⟩ := G.step (clob := clobAt clob k0 b.1) hw hreach h0 hs hf hd
  rw [← hk] at fit
  have hreach' : Reach C.code base ok i' c' := .step hreach hs hok
  have hlive' := G.sound.live i' c' hreach'
  have hleaves := leaves_of_step G.wf G.sound G.flagged hreach hs hd
  have hle := P.le
  have hh' := hh
  unfold Halts at hh'
  simp only [not_or, Bool.not_eq_true] at hh'
  cases hj : d.isJump with
  | true =>
    have hi := G.jump_last P.blk P.le hlt hd hlive hj
    obtain ⟨l', cx', e1, e2, _, e4, e5⟩ := P.leave G hw hi hd fit hl hsn him
    obtain ⟨hoff, hio, hlow⟩ := G.jump_facts hd hh hj
    obtain ⟨hev, hargs⟩ := step_evmNext hs h0 he.op hj
    have hcn := G.sound.next i c d hreach hd hj hh hargs
    have hhead := e5 _ _ _ (by rw [hio]; split <;> rfl) hlow
    have hinp : d.stackIo.1 ≤ c.length := by
      have := fit.ok.operands
      exact this
    have hnext : C.run env clob mem (n + 1) = .running (k0 + (b.2 - b.1)) i' cx' := by
      rw [e1]
      unfold Compiled.leave
      dsimp only
      rw [show b.2 - 1 = i by omega, hd]
      dsimp only
      rw [hoff, hj, hhead]
      simp only [Bool.false_eq_true, if_false, if_true]
      rw [compiledNext_read C.prog C.code i d c hinp hio, hcn, hev]
    have hst : staysInCall d := by
      refine ⟨hh'.1, hh'.2.1, hh'.2.2, fun h56 => ?_⟩
      cases hinv : d.flags.invalidJump with
      | false => rfl
      | true =>
        exfalso
        have := (G.sound.says i c d hreach hd hj hh hargs).invalid hinv
        rw [evmNext_jump h56, this] at hev
        cases hev
    have hlead : C.prog.isLeader i' = true := by
      cases hleaves with
      | jumps dt _ h1 h2 => exact reachable_leader h1 h2
      | next h1 _ _ _ _ _ => rw [h1]; exact live_not_leader hd hlive hj
      | falls h1 _ => rw [h1]; exact live_not_leader hd hlive hj
    obtain ⟨b', hb', hb1⟩ := C.prog.leader_start hlive' hlead
    have hk' : k + 1 = k0 + (b.2 - b.1) := by omega
    refine .inr ⟨hi, hi ▸ P.push hlt hd fit hl hsn him, b', cx', hb', hb1, by rw [hk']; exact hnext,
      e4 fun _ => .inr hst, e2⟩
  | false =>
    have hi' : i' = i + 1 := by
      cases hleaves with
      | jumps dt h _ _ => rw [hj] at h; cases h
      | next h1 _ _ _ _ _ => exact h1
      | falls h1 _ => exact h1
    subst hi'
    rcases Nat.lt_or_ge (i + 1) b.2 with hlt2 | hge
    · exact .inl ⟨rfl, hlt2, P.push hlt hd fit hl hsn him⟩
    · have hi : i + 1 = b.2 := by omega
      obtain ⟨l', cx', e1, e2, _, e4, e5⟩ := P.leave G hw hi hd fit hl hsn him
      have hst : staysInCall d := by
        refine ⟨hh'.1, hh'.2.1, hh'.2.2, fun h56 => ?_⟩
        exfalso
        have : d.opcode = op.JUMP := toNat_eq (k := 0x56) (by omega) h56
        unfold InstData.isJump at hj
        rw [this] at hj
        simp at hj
      have hnext : C.run env clob mem (n + 1) = .running (k0 + (b.2 - b.1)) b.2 cx' := by
        rw [e1]
        unfold Compiled.leave
        dsimp only
        rw [show b.2 - 1 = i by omega, hd]
        dsimp only
        rw [not_halts_off hh, hj, stays_diverges hst]
        simp only [Bool.false_eq_true, if_false]
      have hP := P.push hlt hd fit hl hsn him
      rw [hi] at hlive' hP ⊢
      obtain ⟨b', hb', hb1⟩ := next_block P.blk hlive'
      have hk' : k + 1 = k0 + (b.2 - b.1) := by omega
      exact .inr ⟨rfl, hP, b', cx', hb', hb1, by rw [hk']; exact hnext, e4 fun _ => .inr hst, e2⟩

/-- Every position of every execution lies in a block that the compiled program has entered in the same state. -/
theorem GoodC.inv (hw : WorldX C.ai base env) {k i : Nat} {c : List Word} {tr : List (Obs F)}
    (hr : Run C.code base env ok k i c tr) : ∃ b n k0 c0 cx, i < b.2 ∧
      Part C env clob mem b n k0 c0 cx k i c tr := by
  have start : ∀ (b : Nat × Nat) (n k : Nat) (c : List Word) (cx : SCx (Option F)) (tr : List (Obs F)),
      b ∈ C.prog.blocks → C.run env clob mem n = .running k b.1 cx → Holds cx c → c.length ≤ 1024 →
      shown cx.trace = tr → ∃ b' n k0 c0 cx, b.1 < b'.2 ∧ Part C env clob mem b' n k0 c0 cx k b.1 c tr := by
    intro b n k c cx tr hb hr hh hl ht
    refine ⟨b, n, k, c, cx, (C.prog.blocks_ok.range b hb).2.1, ?_⟩
    rw [← ht]
    exact part_start hb hr hh hl
  induction hr with
  | start hok =>
    obtain ⟨b, hb, h0⟩ := C.prog.leader_start (G.sound.live 0 [] (.start hok)) (by simp [Prog.isLeader])
    have := start b 0 0 [] { mem := mem } [] hb (by rw [h0]; rfl) ⟨rfl, fun d w h => by simp at h⟩ (by simp) rfl
    rw [h0] at this
    exact this
  | @step k i i' c c' tr d0 hr h0 hs hf hl hok ih =>
    obtain ⟨b, n, k0, c0, cx, hlt, P⟩ := ih
    rcases G.inv_step hw P hlt hr.reach.1 h0 hs hf hl hok with ⟨_, h2, h3⟩ | ⟨_, _, b', cx', h4, h5, h6, h7, h8⟩
    · exact ⟨b, n, k0, c0, cx, h2, h3⟩
    · have := start b' (n + 1) (k + 1) c' cx' _ h4 (by rw [h5]; exact h6) h7 hl h8
      rw [h5] at this
      exact this

end inv

end Verif
