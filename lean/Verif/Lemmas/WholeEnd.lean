import Verif.Lemmas.WholeFail
import Verif.Lemmas.WholeExec
/-!
# How executions of whole programs end
-/

namespace Verif
open Spec
variable {F : Type}

theorem halts_diverges {d : InstData} (h : Halts d) : d.isDiverging = true := by
  obtain ⟨_, t2⟩ := diverging_table d.opcode
  unfold InstData.isDiverging
  rcases h with h | h | h
  · rw [h]; simp
  · rw [h]; simp
  · rw [t2, List.contains_iff_mem.2 h]; simp

theorem halts_imm {code : Code} {i : Nat} {d : InstData} (h : Halts d) : badImm code (i, d) = false := by
  unfold badImm
  dsimp only
  rcases h with h | h | h
  · rw [h]; rfl
  · rw [h]; simp
  · have : ∀ o : UInt8, o.toNat ∈ [0x00, 0xf3, 0xfd, 0xfe, 0xff] →
        (o == op.DUPN || o == op.SWAPN || o == op.EXCHANGE) = false := by decide +kernel
    rw [this _ h]; simp

theorem jump_imm {code : Code} {i : Nat} {d : InstData} (h : d.isJump = true) : badImm code (i, d) = false := by
  unfold InstData.isJump at h
  unfold badImm
  dsimp only
  have : ∀ o : UInt8, (o == op.JUMP || o == op.JUMPI) = true →
      (o == op.DUPN || o == op.SWAPN || o == op.EXCHANGE) = false := by decide +kernel
  rw [this _ h]; simp

theorem live_div_leader {p : Prog} {i : Nat} {d : InstData} (hd : p.insts[i]? = some d)
    (hl : d.flags.deadCode = false) (hj : d.isDiverging = true) : p.isLeader (i + 1) = true := by
  unfold Prog.isLeader
  rw [Nat.add_sub_cancel, hd]
  simp [hl, InstData.isBranching, hj]

/-- An outcome that is not `running` is final. -/
def COut.final : COut F → Bool
  | .running _ _ _ => false
  | _ => true

theorem run_final {C : Compiled} {env : Env F} {clob : Nat → Int → Word} {mem : Int → Word} {n : Nat}
    (h : (C.run env clob mem n).final = true) (m : Nat) :
    C.run env clob mem (n + m) = C.run env clob mem n := by
  induction m with
  | zero => rfl
  | succ m ih =>
    show (match C.run env clob mem (n + m) with | .running k i cx => C.block env clob k i cx | o => o) = _
    rw [ih]
    revert h
    generalize C.run env clob mem n = o
    intro h
    cases o <;> first | rfl | cases h

theorem run_final_eq {C : Compiled} {env : Env F} {clob : Nat → Int → Word} {mem : Int → Word} {n m : Nat}
    (h : (C.run env clob mem n).final = true) (h' : (C.run env clob mem m).final = true) :
    C.run env clob mem n = C.run env clob mem m := by
  rcases Nat.le_total n m with hl | hl
  · rw [← run_final h (m - n), Nat.add_sub_cancel' hl]
  · rw [← run_final h' (n - m), Nat.add_sub_cancel' hl]

theorem compileBlocks_mem {o : WOpts} {code : Code} {p : Prog} {ai : AIState} :
    ∀ {bs : List (Nat × Nat)} {out : List CBlock}, compileBlocks o code p ai bs = some out →
      ∀ x ∈ out, (x.start, x.stop) ∈ bs
  | [], _, h, x, hx => by cases h; simp at hx
  | a :: bs, out, h, x, hx => by
    unfold compileBlocks at h
    obtain ⟨y, hy, h⟩ := Option.bind_eq_some_iff.1 h
    obtain ⟨xs, hxs, rfl⟩ := Option.map_eq_some_iff.1 h
    rcases List.mem_cons.1 hx with rfl | hx
    · unfold compileBlock at hy
      obtain ⟨l', hl, hy⟩ := Option.bind_eq_some_iff.1 hy
      split at hy
      · cases hy; simp
      · cases hy
    · exact List.mem_cons_of_mem _ (compileBlocks_mem hxs x hx)

theorem evmStep_jump {code : Code} {env : Env F} {insts : List InstData} {k i : Nat} {d : InstData}
    {w : Word} {r : List Word} (hd : insts[i]? = some d) (hh : ¬ Halts d) (h : d.opcode.toNat = 0x56) :
    evmStep code insts env k i (w :: r) = (code.target w).map fun t => (t, r) := by
  unfold evmStep
  rw [hd]
  dsimp only
  rw [if_neg hh, if_pos h]

theorem evmStep_jumpi {code : Code} {env : Env F} {insts : List InstData} {k i : Nat} {d : InstData}
    {w x : Word} {r : List Word} (hd : insts[i]? = some d) (hh : ¬ Halts d) (h : d.opcode.toNat = 0x57) :
    evmStep code insts env k i (w :: x :: r) =
      if x = 0#256 then some (i + 1, r) else (code.target w).map fun t => (t, r) := by
  unfold evmStep
  rw [hd]
  dsimp only
  rw [if_neg hh, if_neg (by omega), if_pos h]

theorem evmStep_seq {code : Code} {env : Env F} {insts : List InstData} {k i : Nat} {d : InstData}
    {c : List Word} (hd : insts[i]? = some d) (hh : ¬ Halts d) (h : d.opcode.toNat ≠ 0x56)
    (h' : d.opcode.toNat ≠ 0x57) :
    evmStep code insts env k i c = (evmStack code env k i d c).map fun c' => (i + 1, c') := by
  unfold evmStep
  rw [hd]
  dsimp only
  rw [if_neg hh, if_neg h, if_neg h']

section ends
variable {base : List InstData} {ok : Nat → List Word → Prop} {o : WOpts} {C : Compiled} (G : GoodC base ok o C)
  {env : Env F} {clob : Nat → Int → Word} {mem : Int → Word}
include G

theorem GoodC.div_last {i : Nat} {d : InstData} {b : Nat × Nat} (hb : b ∈ C.prog.blocks) (h1 : b.1 ≤ i) (h2 : i < b.2)
    (hd : C.prog.insts[i]? = some d) (hl : d.flags.deadCode = false) (hj : d.isDiverging = true) : i + 1 = b.2 := by
  rcases Nat.lt_or_ge (i + 1) b.2 with hlt | hge
  · have := C.prog.blocks_ok.inside b hb (i + 1) (by omega) hlt
    rw [live_div_leader hd hl hj] at this
    cases this
  · omega

/-- At most so many instructions have been executed. -/
theorem GoodC.count {n k i : Nat} {cx : SCx (Option F)} (h : C.run env clob mem n = .running k i cx) :
    k ≤ n * C.prog.insts.length := by
  induction n generalizing k i cx with
  | zero => cases h; omega
  | succ n ih =>
    change (match C.run env clob mem n with | .running k i cx => C.block env clob k i cx | o => o) = _ at h
    cases hr : C.run env clob mem n with
    | running k1 i1 cx1 =>
      rw [hr] at h
      change C.block env clob k1 i1 cx1 = _ at h
      have hk := ih hr
      unfold Compiled.block at h
      split at h
      · cases h
      rename_i b hb
      have hm := compileBlocks_mem G.blocks b (List.mem_of_find?_eq_some hb)
      have hrange := C.prog.blocks_ok.range _ hm
      have hb2 : b.stop ≤ C.prog.insts.length := by
        have := hrange
        simp only at this
        omega
      have key : ∀ cx2, C.leave k1 b cx2 = .running k i cx → k ≤ (n + 1) * C.prog.insts.length := by
        intro cx2 h2
        have hk2 : k = k1 + (b.stop - b.start) := by
          unfold Compiled.leave at h2
          split at h2
          · cases h2
          · split at h2
            · cases h2
            · split at h2
              · split at h2
                · split at h2
                  · cases h2; rfl
                  · cases h2
                · cases h2
              · split at h2
                · cases h2
                · cases h2; rfl
        rw [Nat.add_mul, Nat.one_mul]
        omega
      split at h
      · split at h <;> cases h
      · split at h
        · exact key _ h
        · cases h
        · cases h
    | halted _ _ => rw [hr] at h; cases h
    | invalidJump _ => rw [hr] at h; cases h
    | stackError _ _ => rw [hr] at h; cases h
    | badImmediate _ _ => rw [hr] at h; cases h
    | panic => rw [hr] at h; cases h

variable {k i : Nat} {c : List Word} {tr : List (Obs F)} {d : InstData}

/-- The EVM is at the start of a block. -/
theorem GoodC.enters (hw : WorldX C.ai base env) (hr : Run C.code base env ok k i c tr) {b : Nat × Nat}
    (hb : b ∈ C.prog.blocks) (hi : b.1 = i) :
    ∃ n cx, C.run env clob mem n = .running k i cx ∧ Holds cx c ∧ shown cx.trace = tr := by
  obtain ⟨b', n, k0, c0, cx, hlt, P⟩ := G.inv (clob := clob) (mem := mem) hw hr
  have hle := P.le
  have hb1 : b'.1 = i := by
    rcases Nat.lt_or_ge b'.1 i with hx | hx
    · exfalso
      have hrange := C.prog.blocks_ok.range b hb
      obtain ⟨x, hx1, rfl⟩ := List.getElem_of_mem hb
      have hb' := P.blk
      obtain ⟨y, hy1, rfl⟩ := List.getElem_of_mem hb'
      rcases Nat.lt_trichotomy x y with h1 | h1 | h1
      · have := C.prog.blocks_lt (List.getElem?_eq_getElem hx1) (List.getElem?_eq_getElem hy1) h1; omega
      · subst h1; omega
      · have := C.prog.blocks_lt (List.getElem?_eq_getElem hy1) (List.getElem?_eq_getElem hx1) h1; omega
    · omega
  have hk := P.k
  have hst := P.stack
  have hob := P.obs
  have hrun := P.run
  have hho := P.holds
  rw [hb1] at hk hst hob hrun
  rw [part_self] at hst hob
  rw [Nat.sub_self, Nat.add_zero] at hk
  subst hk
  refine ⟨n, cx, hrun, ?_, by rw [← hob]; rfl⟩
  rw [← hst]
  exact hho

/-- The EVM halts in a block. -/
theorem GoodC.halts_part (hw : WorldX C.ai base env) {b : Nat × Nat} {n k0 : Nat} {c0 : List Word} {cx : SCx (Option F)}
    (P : Part C env clob mem b n k0 c0 cx k i c tr) (hlt : i < b.2) (hreach : Reach C.code base ok i c)
    (hc : c.length ≤ 1024) (hd : base[i]? = some d)
    (hh : Halts d) (hlen : d.stackIo.1 ≤ c.length) :
    i + 1 = b.2 ∧
    Part C env clob mem b n k0 c0 cx (k + 1) b.2 (c.drop d.stackIo.1) (observed env k i d c ++ tr) ∧
    ∃ cx, C.run env clob mem (n + 1) = .halted i cx ∧ shown cx.trace = observed env k i d c ++ tr ∧
      cx.lenVar = (c.drop d.stackIo.1).length ∧
      ((o.dse = true → o.inspect = true) → Holds cx (c.drop d.stackIo.1)) := by
  obtain ⟨d1, hd1, hlive⟩ := G.sound.live i c hreach
  have he := G.sound.ev.inst _ _ _ hd hd1
  have hh1 : Halts d1 := he.halts.2 hh
  have hdiv := halts_diverges hh1
  have hi := G.div_last P.blk P.le hlt hd1 hlive hdiv
  have hlen1 : d1.stackIo.1 ≤ c.length := by rw [he.io]; exact hlen
  have hsn := G.snapAt hreach hd1 hlen1
  have fit := halt_fit (k := k0) (s := b.1) (clob := clobAt clob k0 b.1) hd1 (G.inst i d1 hd1) hh1 (G.world hw) hlen1 hsn
  rw [← P.k] at fit
  obtain ⟨l', cx', e1, e2, e3, e4, _⟩ := P.leave G hw hi hd1 fit (by rw [List.length_drop]; omega) (fullSnap_of hsn)
    (halts_imm hh1)
  have hP := P.push hlt hd1 fit (by rw [List.length_drop]; omega) (fullSnap_of hsn) (halts_imm hh1)
  rw [he.io, observed_evolve he, hi] at hP
  rw [he.io] at e3 e4
  refine ⟨hi, hP, cx', ?_, ?_, e3, fun h => e4 fun hd => .inl (h hd)⟩
  · rw [e1]
    unfold Compiled.leave
    dsimp only
    rw [show b.2 - 1 = i by omega, hd1]
    dsimp only
    split
    · rfl
    · rename_i hoff
      have hj : d1.isJump = false := by
        rcases hh1 with h | h | h
        · rw [h] at hoff; simp at hoff
        · rw [h] at hoff; simp at hoff
        · have : ∀ o : UInt8, o.toNat ∈ [0x00, 0xf3, 0xfd, 0xfe, 0xff] → (o == op.JUMP || o == op.JUMPI) = false := by
            decide +kernel
          exact this _ h
      rw [hj]
      simp [hdiv]
  · rw [e2, observed_evolve he]

/-- The EVM halts. -/
theorem GoodC.halts (hw : WorldX C.ai base env) (hr : Run C.code base env ok k i c tr) (hd : base[i]? = some d)
    (hh : Halts d) (hlen : d.stackIo.1 ≤ c.length) :
    ∃ n cx, C.run env clob mem n = .halted i cx ∧ shown cx.trace = observed env k i d c ++ tr ∧
      cx.lenVar = (c.drop d.stackIo.1).length ∧
      ((o.dse = true → o.inspect = true) → Holds cx (c.drop d.stackIo.1)) := by
  obtain ⟨b, n, k0, c0, cx, hlt, P⟩ := G.inv (clob := clob) (mem := mem) hw hr
  obtain ⟨hreach, hc⟩ := hr.reach
  exact ⟨n + 1, (G.halts_part hw P hlt hreach hc hd hh hlen).2.2⟩

/-- The EVM jumps to an invalid destination from a block. -/
theorem GoodC.invalid_part (hw : WorldX C.ai base env) {b : Nat × Nat} {n k0 : Nat} {c0 : List Word}
    {cx : SCx (Option F)} (P : Part C env clob mem b n k0 c0 cx k i c tr) (hlt : i < b.2)
    (hreach : Reach C.code base ok i c) (hc : c.length ≤ 1024) (hd : base[i]? = some d)
    (hh : ¬ Halts d) (hj : d.isJump = true) (hlen : d.stackIo.1 ≤ c.length) (hn : evmNext C.code i d c = none) :
    i + 1 = b.2 ∧
    Part C env clob mem b n k0 c0 cx (k + 1) b.2 (c.drop d.stackIo.1) (observed env k i d c ++ tr) ∧
    ∃ cx, C.run env clob mem (n + 1) = .invalidJump cx ∧ shown cx.trace = tr := by
  obtain ⟨d1, hd1, hlive⟩ := G.sound.live i c hreach
  have he := G.sound.ev.inst _ _ _ hd hd1
  have hh1 : ¬ Halts d1 := fun h => hh (he.halts.1 h)
  have hj1 : d1.isJump = true := by rw [he.isJump]; exact hj
  have hi := G.jump_last P.blk P.le hlt hd1 hlive hj1
  have hlen1 : d1.stackIo.1 ≤ c.length := by rw [he.io]; exact hlen
  have hsn := G.snapAt hreach hd1 hlen1
  obtain ⟨hoff, hio, hlow⟩ := G.jump_facts hd1 hh1 hj1
  have fit := jump_fit (k := k0) (s := b.1) (clob := clobAt clob k0 b.1) hd1 (G.inst i d1 hd1).noop (G.world hw) hj1 hlow hio hlen1
    (snapAt_const hsn hlen1)
  rw [← P.k] at fit
  obtain ⟨l', cx', e1, e2, e3, e4, e5⟩ := P.leave G hw hi hd1 fit (by rw [List.length_drop]; omega) (fullSnap_of hsn)
    (jump_imm hj1)
  have hargs : HasArgs d1 c := by
    unfold HasArgs
    rw [hio] at hlen1
    unfold InstData.isJump at hj1
    simp only [Bool.or_eq_true, beq_iff_eq] at hj1
    rcases hj1 with h | h
    · rw [if_pos h]; rw [h] at hlen1; exact hlen1
    · rw [if_neg (by rw [h]; decide)]; rw [h] at hlen1; exact hlen1
  have hcn := G.sound.next i c d1 hreach hd1 hj1 hh1 hargs
  have hev : evmNext C.code i d1 c = none := by
    rw [← hn]; unfold evmNext; rw [he.op]
  have hhead := e5 _ _ _ (by rw [hio]; split <;> rfl) hlow
  have hP := P.push hlt hd1 fit (by rw [List.length_drop]; omega) (fullSnap_of hsn) (jump_imm hj1)
  rw [he.io, observed_evolve he, hi] at hP
  refine ⟨hi, hP, cx', ?_, ?_⟩
  · rw [e1]
    unfold Compiled.leave
    dsimp only
    rw [show b.2 - 1 = i by omega, hd1]
    dsimp only
    rw [hoff, hj1, hhead]
    simp only [Bool.false_eq_true, if_false, if_true]
    rw [compiledNext_read C.prog C.code i d1 c hlen1 hio, hcn, hev]
  · have hsil : mute d1.opcode.toNat = true := by
      have : ∀ o : UInt8, (o == op.JUMP || o == op.JUMPI) = true → mute o.toNat = true := by decide +kernel
      exact this _ hj1
    have hnc : callOp d1.opcode.toNat = false := by
      have : ∀ o : UInt8, (o == op.JUMP || o == op.JUMPI) = true → callOp o.toNat = false := by decide +kernel
      exact this _ hj1
    rw [e2]
    unfold observed
    rw [hoff, hnc, (G.world hw).quiet _ _ _ _ hd1 hsil]
    simp

/-- The EVM jumps to an invalid destination. -/
theorem GoodC.invalid (hw : WorldX C.ai base env) (hr : Run C.code base env ok k i c tr) (hd : base[i]? = some d)
    (hh : ¬ Halts d) (hj : d.isJump = true) (hlen : d.stackIo.1 ≤ c.length) (hn : evmNext C.code i d c = none) :
    ∃ n cx, C.run env clob mem n = .invalidJump cx ∧ shown cx.trace = tr := by
  obtain ⟨b, n, k0, c0, cx, hlt, P⟩ := G.inv (clob := clob) (mem := mem) hw hr
  obtain ⟨hreach, hc⟩ := hr.reach
  exact ⟨n + 1, (G.invalid_part hw P hlt hreach hc hd hh hj hlen hn).2.2⟩

/-- The EVM reports a stack error. -/
theorem GoodC.stack (hw : WorldX C.ai base env) (hr : Run C.code base env ok k i c tr) (hd : base[i]? = some d)
    (hfit : ∀ b ∈ C.prog.blocks,
      (blockAcc (C.prog.blockInsts b)).inputs + (blockAcc (C.prog.blockInsts b)).maxGrowth ≤ 32767)
    (hf : c.length < d.stackIo.1 ∨ 1024 < c.length - d.stackIo.1 + d.stackIo.2) :
    ∃ n f cx, C.run env clob mem n = .stackError f cx ∧ shown cx.trace <:+ tr ∧
      (c.length < d.stackIo.1 → f = .underflow) := by
  obtain ⟨b, n, k0, c0, cx, hlt, P⟩ := G.inv (clob := clob) (mem := mem) hw hr
  obtain ⟨hreach, hc⟩ := hr.reach
  obtain ⟨d1, hd1, hlive⟩ := G.sound.live i c hreach
  have he := G.sound.ev.inst _ _ _ hd hd1
  obtain ⟨f, cx', h⟩ := P.stackFail G hw hlt hd1 (hfit b P.blk) (by
    rw [he.io]
    unfold stackFails
    rcases hf with h | h
    · exact .inl h
    · exact .inr (.inl h))
  rw [he.io] at h
  exact ⟨n + 1, f, cx', h⟩

/-- The EVM meets an immediate that does not decode. -/
theorem GoodC.immediate (hw : WorldX C.ai base env) (hr : Run C.code base env ok k i c tr) (hd : base[i]? = some d)
    (hfit : ∀ b ∈ C.prog.blocks,
      (blockAcc (C.prog.blockInsts b)).inputs + (blockAcc (C.prog.blockInsts b)).maxGrowth ≤ 32767)
    (hf : badImm C.code (i, d) = true) :
    ∃ n, (∃ cx, C.run env clob mem n = .badImmediate i cx ∧ shown cx.trace = tr) ∨
      ∃ f cx, C.run env clob mem n = .stackError f cx ∧ shown cx.trace <:+ tr := by
  obtain ⟨b, n, k0, c0, cx, hlt, P⟩ := G.inv (clob := clob) (mem := mem) hw hr
  obtain ⟨hreach, hc⟩ := hr.reach
  obtain ⟨d1, hd1, hlive⟩ := G.sound.live i c hreach
  have he := G.sound.ev.inst _ _ _ hd hd1
  refine ⟨n + 1, P.immFail G hw hlt hd1 (hfit b P.blk) ?_⟩
  rw [← hf]
  unfold badImm
  dsimp only
  rw [he.dis, he.unk, he.op]

/-- The EVM executes the next instruction, or is at one of the ends. -/
theorem GoodC.progress (hw : WorldX C.ai base env) (hr : Run C.code base env ok k i c tr) :
    ∃ d, base[i]? = some d ∧
      ((Halts d ∧ d.stackIo.1 ≤ c.length) ∨
       (¬ Halts d ∧ d.isJump = true ∧ d.stackIo.1 ≤ c.length ∧ evmNext C.code i d c = none) ∨
       (c.length < d.stackIo.1 ∨ 1024 < c.length - d.stackIo.1 + d.stackIo.2) ∨
       badImm C.code (i, d) = true ∨
       ∃ i' c', Step C.code base i c i' c' ∧ Follows C.code env k i d c c' ∧ c'.length ≤ 1024) := by
  obtain ⟨hreach, hc⟩ := hr.reach
  obtain ⟨d1, hd1, hlive⟩ := G.sound.live i c hreach
  obtain ⟨d, hd, he⟩ := G.sound.ev.back hd1
  refine ⟨d, hd, ?_⟩
  by_cases hl : d.stackIo.1 ≤ c.length
  · by_cases hh : Halts d
    · exact .inl ⟨hh, hl⟩
    have hoff := not_halts_off hh
    have hio : d.stackIo = computeStackIo d.opcode (some [UInt8.ofNat (C.code.imm i).toNat]) := by
      have := (G.inst i d1 hd1).io
      dsimp only at this
      rw [he.dis, he.unk, he.op, he.io] at this
      exact this hoff
    by_cases hb : badImm C.code (i, d) = true
    · exact .inr (.inr (.inr (.inl hb)))
    by_cases hov : 1024 < c.length - d.stackIo.1 + d.stackIo.2
    · exact .inr (.inr (.inl (.inr hov)))
    have hjio : ∀ {d : InstData}, d.stackIo = computeStackIo d.opcode (some [UInt8.ofNat (C.code.imm i).toNat]) →
        d.opcode.toNat = 0x56 ∨ d.opcode.toNat = 0x57 →
        d.stackIo = if d.opcode.toNat = 0x57 then (2, 0) else (1, 0) := by
      intro d hio h
      have hji := jump_io hio
      rcases h with h | h
      · rw [if_neg (by omega)]; exact hji.1 (toNat_eq (k := 0x56) (by omega) h)
      · rw [if_pos h]; exact hji.2 (toNat_eq (k := 0x57) (by omega) h)
    have hsome : ∀ i' c', evmStep C.code base env k i c = some (i', c') →
        ∃ i' c', Step C.code base i c i' c' ∧ Follows C.code env k i d c c' ∧ c'.length ≤ 1024 := by
      intro i' c' h
      obtain ⟨s1, s2⟩ := evmStep_sound hw.len hd (fun _ => hjio hio) h
      refine ⟨i', c', s1, s2, ?_⟩
      obtain ⟨_, hio', hst⟩ := step_effect G.wf G.sound.ev s1 hd1
      have := (step_len hio' hst).2.1
      rw [he.io] at this
      omega
    by_cases h56 : d.opcode.toNat = 0x56
    · have hj : d.isJump = true := by
        unfold InstData.isJump; rw [toNat_eq (k := 0x56) (by omega) h56]; rfl
      cases hn : evmNext C.code i d c with
      | none => exact .inr (.inl ⟨hh, hj, hl, rfl⟩)
      | some t =>
        have hi2 := hjio hio (.inl h56)
        rw [hi2, if_neg (by omega)] at hl
        cases c with
        | nil => simp at hl
        | cons w r =>
          unfold evmNext at hn
          rw [if_pos h56] at hn
          change C.code.target w = _ at hn
          have hstep := evmStep_jump (code := C.code) (env := env) (k := k) (w := w) (r := r) hd hh h56
          rw [hn] at hstep
          exact .inr (.inr (.inr (.inr (hsome _ _ hstep))))
    · by_cases h57 : d.opcode.toNat = 0x57
      · have hj : d.isJump = true := by
          unfold InstData.isJump; rw [toNat_eq (k := 0x57) (by omega) h57]; rfl
        cases hn : evmNext C.code i d c with
        | none => exact .inr (.inl ⟨hh, hj, hl, rfl⟩)
        | some t =>
          have hi2 := hjio hio (.inr h57)
          rw [hi2, if_pos h57] at hl
          match c with
          | [] => simp at hl
          | [_] => simp at hl
          | w :: x :: r =>
            unfold evmNext at hn
            rw [if_neg h56] at hn
            change (if x = 0#256 then some (i + 1) else C.code.target w) = _ at hn
            have hstep := evmStep_jumpi (code := C.code) (env := env) (k := k) (w := w) (x := x) (r := r) hd hh h57
            by_cases hx : x = 0#256
            · rw [if_pos hx] at hstep
              exact .inr (.inr (.inr (.inr (hsome _ _ hstep))))
            · rw [if_neg hx] at hn hstep
              rw [hn] at hstep
              exact .inr (.inr (.inr (.inr (hsome _ _ hstep))))
      · have hstep := evmStep_seq (code := C.code) (env := env) (k := k) (c := c) hd hh h56 h57
        obtain ⟨c', h'⟩ := evmStack_total env k hio hl (by simpa using hb) hoff
        rw [h'] at hstep
        exact .inr (.inr (.inr (.inr (hsome _ _ hstep))))
  · exact .inr (.inr (.inl (.inl (by omega))))

/-- If the compiled program ends, the EVM comes to an end or leaves the admitted positions. -/
theorem GoodC.outcome (hw : WorldX C.ai base env) (h0 : ok 0 []) {n : Nat}
    (hn : (C.run env clob mem n).final = true) :
    ∃ k i c tr d, Run C.code base env ok k i c tr ∧ base[i]? = some d ∧
      ((Halts d ∧ d.stackIo.1 ≤ c.length) ∨
       (¬ Halts d ∧ d.isJump = true ∧ d.stackIo.1 ≤ c.length ∧ evmNext C.code i d c = none) ∨
       (c.length < d.stackIo.1 ∨ 1024 < c.length - d.stackIo.1 + d.stackIo.2) ∨
       badImm C.code (i, d) = true ∨
       ∃ i' c', Step C.code base i c i' c' ∧ Follows C.code env k i d c c' ∧ c'.length ≤ 1024 ∧ ¬ ok i' c') := by
  have bound : ∀ {k i c tr}, Run C.code base env ok k i c tr → k < (n + 1) * (C.prog.insts.length + 1) := by
    intro k i c tr hr
    obtain ⟨b, m, k0, c0, cx, hlt, P⟩ := G.inv (clob := clob) (mem := mem) hw hr
    have hm : m < n := by
      rcases Nat.lt_or_ge m n with h | h
      · exact h
      · exfalso
        have := run_final hn (m - n)
        rw [Nat.add_sub_cancel' h, P.run] at this
        rw [← this] at hn
        cases hn
    have h1 := G.count P.run
    have h2 := C.prog.blocks_ok.range b P.blk
    have h3 := P.k
    have h4 : m * C.prog.insts.length ≤ n * C.prog.insts.length := Nat.mul_le_mul_right _ (by omega)
    have h5 : (n + 1) * (C.prog.insts.length + 1) = n * C.prog.insts.length + n + C.prog.insts.length + 1 := by
      rw [Nat.add_mul, Nat.mul_add, Nat.mul_one, Nat.one_mul]; omega
    omega
  have key : ∀ (m : Nat) {k i c tr}, (n + 1) * (C.prog.insts.length + 1) ≤ k + m →
      Run C.code base env ok k i c tr → ∃ k i c tr d, Run C.code base env ok k i c tr ∧ base[i]? = some d ∧
      ((Halts d ∧ d.stackIo.1 ≤ c.length) ∨
       (¬ Halts d ∧ d.isJump = true ∧ d.stackIo.1 ≤ c.length ∧ evmNext C.code i d c = none) ∨
       (c.length < d.stackIo.1 ∨ 1024 < c.length - d.stackIo.1 + d.stackIo.2) ∨
       badImm C.code (i, d) = true ∨
       ∃ i' c', Step C.code base i c i' c' ∧ Follows C.code env k i d c c' ∧ c'.length ≤ 1024 ∧ ¬ ok i' c') := by
    intro m
    induction m with
    | zero =>
      intro k i c tr hm hr
      have := bound hr
      omega
    | succ m ih =>
      intro k i c tr hm hr
      obtain ⟨d, hd, h⟩ := G.progress hw hr
      rcases h with h | h | h | h | ⟨i', c', h1, h2, h3⟩
      · exact ⟨k, i, c, tr, d, hr, hd, .inl h⟩
      · exact ⟨k, i, c, tr, d, hr, hd, .inr (.inl h)⟩
      · exact ⟨k, i, c, tr, d, hr, hd, .inr (.inr (.inl h))⟩
      · exact ⟨k, i, c, tr, d, hr, hd, .inr (.inr (.inr (.inl h)))⟩
      · by_cases hok : ok i' c'
        · exact ih (by omega) (.step hr hd h1 h2 h3 hok)
        · exact ⟨k, i, c, tr, d, hr, hd, .inr (.inr (.inr (.inr ⟨i', c', h1, h2, h3, hok⟩)))⟩
  exact key _ (Nat.le_add_left _ _) (.start h0)

end ends

/-! ## In the words of the specification -/

theorem undecodable_bad {code : Code} {i : Nat} {d : InstData} : badImm code (i, d) = true ↔ Undecodable code i d := by
  have hbyte : (UInt8.ofNat (code.imm i).toNat).toNat = (code.imm i).toNat % 256 := by simp
  have hs := decodeSingle_spec (UInt8.ofNat (code.imm i).toNat)
  have hp := decodePair_spec (UInt8.ofNat (code.imm i).toNat)
  rw [hbyte] at hs hp
  have e1 : d.opcode = op.DUPN ↔ d.opcode.toNat = 0xe6 := ⟨fun h => by rw [h]; rfl, toNat_eq (k := 0xe6) (by omega)⟩
  have e2 : d.opcode = op.SWAPN ↔ d.opcode.toNat = 0xe7 := ⟨fun h => by rw [h]; rfl, toNat_eq (k := 0xe7) (by omega)⟩
  have e3 : d.opcode = op.EXCHANGE ↔ d.opcode.toNat = 0xe8 := ⟨fun h => by rw [h]; rfl, toNat_eq (k := 0xe8) (by omega)⟩
  unfold badImm Undecodable decodeImm
  dsimp only
  rw [← hs, ← hp]
  simp only [Bool.and_eq_true, Bool.not_eq_true', Bool.or_eq_false_iff, Bool.or_eq_true, beq_iff_eq, not_or,
    Bool.not_eq_true, List.mem_cons, List.not_mem_nil, or_false, ← e1, ← e2, ← e3, Option.map_eq_none_iff]
  by_cases h1 : d.opcode = op.DUPN
  · rw [h1]; simp [op.DUPN, op.SWAPN, op.EXCHANGE]
  · by_cases h2 : d.opcode = op.SWAPN
    · rw [h2]; simp [op.DUPN, op.SWAPN, op.EXCHANGE]
    · by_cases h3 : d.opcode = op.EXCHANGE
      · rw [h3]; simp [op.DUPN, op.SWAPN, op.EXCHANGE]
      · simp [h1, h2, h3]

theorem acc_lowest (l : List (Nat × InstData)) : ∀ (a : StackAcc),
    (l.foldl (fun a p => a.process p.2.stackIo.1 p.2.stackIo.2) a).inputs =
      max a.inputs (-(lowest (l.map (·.2.stackIo)) a.diff)) ∨ l = [] := by
  induction l with
  | nil => intro a; exact .inr rfl
  | cons x l ih =>
    intro a
    left
    rw [List.foldl_cons]
    rcases ih (a.process x.2.stackIo.1 x.2.stackIo.2) with h | h
    · rw [h]
      unfold StackAcc.process
      dsimp only
      rw [List.map_cons]
      show _ = max a.inputs (-(min (a.diff - (x.2.stackIo.1 : Int)) (lowest _ (a.diff - (x.2.stackIo.1 : Int) + (x.2.stackIo.2 : Int)))))
      rw [show a.diff + ((x.2.stackIo.2 : Int) - (x.2.stackIo.1 : Int)) = a.diff - (x.2.stackIo.1 : Int) + (x.2.stackIo.2 : Int) by omega]
      omega
    · subst h
      unfold StackAcc.process
      show max a.inputs ((x.2.stackIo.1 : Int) - a.diff) =
        max a.inputs (-(min (a.diff - (x.2.stackIo.1 : Int)) (a.diff - (x.2.stackIo.1 : Int) + (x.2.stackIo.2 : Int))))
      omega

theorem acc_highest (l : List (Nat × InstData)) : ∀ (a : StackAcc), a.diff ≤ a.maxGrowth →
    (l.foldl (fun a p => a.process p.2.stackIo.1 p.2.stackIo.2) a).maxGrowth =
      max a.maxGrowth (highest (l.map (·.2.stackIo)) a.diff) := by
  induction l with
  | nil => intro a h; show a.maxGrowth = max a.maxGrowth a.diff; omega
  | cons x l ih =>
    intro a h
    rw [List.foldl_cons, ih]
    · unfold StackAcc.process
      dsimp only
      rw [List.map_cons]
      show _ = max a.maxGrowth (max a.diff (highest _ (a.diff - (x.2.stackIo.1 : Int) + (x.2.stackIo.2 : Int))))
      rw [show a.diff + ((x.2.stackIo.2 : Int) - (x.2.stackIo.1 : Int)) = a.diff - (x.2.stackIo.1 : Int) + (x.2.stackIo.2 : Int) by omega]
      have : a.diff - (x.2.stackIo.1 : Int) + (x.2.stackIo.2 : Int) ≤
          highest (l.map (·.2.stackIo)) (a.diff - (x.2.stackIo.1 : Int) + (x.2.stackIo.2 : Int)) := by
        cases l with
        | nil => exact Int.le_refl _
        | cons y l => exact Int.le_max_left _ _
      omega
    · unfold StackAcc.process
      dsimp only
      omega

theorem lowest_le (l : List (Nat × Nat)) (h : Int) : lowest l h ≤ h := by
  cases l with
  | nil => exact Int.le_refl _
  | cons x l => show min _ _ ≤ _; omega

theorem le_highest (l : List (Nat × Nat)) (h : Int) : h ≤ highest l h := by
  cases l with
  | nil => exact Int.le_refl _
  | cons x l => show _ ≤ max _ _; omega

theorem blockAcc_span (l : List (Nat × InstData)) : (blockAcc l).inputs + (blockAcc l).maxGrowth =
    highest (l.map (·.2.stackIo)) 0 - lowest (l.map (·.2.stackIo)) 0 := by
  unfold blockAcc
  rw [acc_highest l {} (by decide)]
  have h1 := lowest_le (l.map (·.2.stackIo)) 0
  have h2 := le_highest (l.map (·.2.stackIo)) 0
  rcases acc_lowest l {} with h | h
  · rw [h]
    show max 0 (-(lowest (l.map (·.2.stackIo)) 0)) + max 0 (highest (l.map (·.2.stackIo)) 0) = _
    omega
  · subst h; rfl

theorem slice_io {base : List InstData} {p : Prog} (hev : Evolves base p.insts) (s : Nat) :
    ∀ n, s + n ≤ p.insts.length → (p.slice s n).map (·.2.stackIo) = ((base.drop s).take n).map (·.stackIo)
  | 0, _ => by unfold Prog.slice; simp
  | n + 1, h => by
    obtain ⟨d, hd⟩ : ∃ d, p.insts[s + n]? = some d := ⟨_, List.getElem?_eq_getElem (by omega)⟩
    obtain ⟨d0, h0, he⟩ := hev.back hd
    rw [slice_succ hd, List.map_append, slice_io hev s n (by omega), List.take_add_one, List.getElem?_drop, h0,
      List.map_append]
    simp [he.io]

theorem GoodC.fits {base : List InstData} {ok : Nat → List Word → Prop} {o : WOpts} {C : Compiled}
    (G : GoodC base ok o C) (h : ∀ b ∈ C.prog.blocks,
      highest (((base.drop b.1).take (b.2 - b.1)).map (·.stackIo)) 0 -
        lowest (((base.drop b.1).take (b.2 - b.1)).map (·.stackIo)) 0 ≤ 32767) : ∀ b ∈ C.prog.blocks,
      (blockAcc (C.prog.blockInsts b)).inputs + (blockAcc (C.prog.blockInsts b)).maxGrowth ≤ 32767 := by
  intro b hb
  have := C.prog.blocks_ok.range b hb
  have hs := slice_io G.sound.ev b.1 (b.2 - b.1) (by omega)
  rw [blockAcc_span]
  unfold Prog.blockInsts
  rw [hs]
  exact h b hb

theorem compile_prog {g : UInt8 → BitVec 16} {spec : SpecId} {limit : Nat} {bytes : List UInt8} {o : WOpts}
    {C : Compiled} (hC : compileBytes o g spec limit bytes = some C) :
    C.prog = (analyzeBytes g spec limit bytes).1 := by
  unfold compileBytes at hC
  revert hC
  generalize analyzeBytes g spec limit bytes = r
  intro hC
  obtain ⟨bs, hb, rfl⟩ := Option.map_eq_some_iff.1 hC
  rfl

end Verif
