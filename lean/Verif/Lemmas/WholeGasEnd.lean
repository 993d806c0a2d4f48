import Verif.Lemmas.WholeGasPart
/-!
# Executions of whole programs with gas
-/

namespace Verif
open Spec
variable {F : Type}

theorem branching_ends {spec : SpecId} {d : InstData} (h : (d.isBranching || d.isDiverging) = true) :
    d.endsSection spec = true := by
  unfold InstData.endsSection
  unfold InstData.isBranching at h ⊢
  revert h
  cases d.isDiverging <;> simp
  intro h
  exact .inl (.inr h)

theorem jump_ends {spec : SpecId} {d : InstData} (h : d.isJump = true) : d.endsSection spec = true := by
  refine branching_ends ?_
  unfold InstData.isBranching
  rw [h]; simp

/-- Where a block that is left was, and where the next one starts. -/
theorem next_head {p : Prog} {spec : SpecId} {b b' : Nat × Nat} {i i' : Nat} {d : InstData} (hi : i + 1 = b.2)
    (hd : p.insts[i]? = some d) (hl : d.flags.deadCode = false) (hlv : Leaves p i d i') (hb' : b' ∈ p.blocks)
    (hb1 : b'.1 = i') (hlive : LiveAt p.insts i') :
    SecHead p.insts spec p.hasDyn i' ∧
      (d.endsSection spec = true ∨ specRest spec p.hasDyn (p.insts.drop b.2) b.2 = []) := by
  have next : i' = i + 1 → SecHead p.insts spec p.hasDyn i' ∧
      (d.endsSection spec = true ∨ specRest spec p.hasDyn (p.insts.drop b.2) b.2 = []) := by
    intro h
    subst h
    cases he : d.endsSection spec with
    | true => exact ⟨.inl (by rw [freshAt_succ hd hl, he]), .inl rfl⟩
    | false =>
      obtain ⟨d', hd', hl'⟩ := hlive
      have hlead : p.isLeader (i + 1) = true := by
        rcases p.blocks_start hb' with h | h | h
        · omega
        · rw [hb1] at h; exact h
        · exfalso
          rw [hb1, Nat.add_sub_cancel] at h
          exact h ⟨d, hd, hl⟩
      unfold Prog.isLeader at hlead
      rw [Nat.add_sub_cancel, hd, hd'] at hlead
      simp only [Option.any_some, Bool.or_eq_true, Bool.and_eq_true, beq_iff_eq, decide_eq_true_eq] at hlead
      rcases hlead with (h | h) | h
      · omega
      · refine ⟨.inr ⟨d', hd', h⟩, .inr ?_⟩
        rw [← hi]
        exact specRest_entry hd' hl' h
      · rw [branching_ends (by simpa using h.2.2)] at he; cases he
  cases hlv with
  | falls h _ => exact next h
  | next h _ _ _ _ _ => exact next h
  | jumps dt hj h1 h2 => exact ⟨.inr ⟨dt, h1, h2⟩, .inl (jump_ends hj)⟩

section ends
variable {base : List InstData} {ok : Nat → List Word → Prop} {o : WOpts} {C : Compiled} (G : GoodC base ok o C)
  {expCost : Word → Nat} {env : Env F} {dyn : Nat → Nat → List Word → Nat}
  {clob : Nat → Int → Word} {mem : Int → Word} {g0 : Nat}
include G

/-- The block is complete. -/
theorem GoodC.gdone (hw : WorldX C.ai base (C.gasEnv env dyn)) (hsf : SumsFit C expCost) {b : Nat × Nat} {n k0 : Nat}
    {c0 : List Word} {cx : SCx (Option (Paid F))} {ge : Nat} {rde : List (Nat × Nat)} {k i : Nat} {c : List Word}
    {tr : List (Obs (Paid F))} {g : Nat} {rd : List (Nat × Nat)} {d : InstData}
    (P : GPart C expCost env dyn clob mem g0 b n k0 c0 cx ge rde k (i + 1) c tr g rd) (hi : i + 1 = b.2)
    (hb : b.1 ≤ i) (hd : C.prog.insts[i]? = some d)
    (he : d.endsSection C.spec = true ∨ specRest C.spec C.prog.hasDyn (C.prog.insts.drop b.2) b.2 = []) :
    C.runG expCost env dyn clob mem g0 (n + 1) = (C.run (C.gasEnv env dyn) clob mem (n + 1)).withGas g rd := by
  have P1 := P.part
  have hl := P.live
  have hpaid := P.paid
  rw [hi] at P1 hl hpaid
  refine (full_run G hw P1 P.rung).2 hsf P.head hl ?_ g rd hpaid
  rcases he with he | he
  · left
    refine ⟨(i, d), ?_, he⟩
    have := slice_push (C := C) hb hd
    unfold Prog.blockInsts
    rw [← hi, this]; simp
  · exact .inr he

/-- Every position of every execution with gas lies in a block that the compiled program has entered in the same
state, with enough gas. -/
theorem GoodC.ginv (hw : World base env) (hc : Costs base dyn expCost) (hsf : SumsFit C expCost) {k i : Nat}
    {c : List Word} {tr : List (Obs F)} {g : Nat} {rd : List (Nat × Nat)}
    (hr : GasRun C.code base C.spec env dyn ok g0 k i c tr g rd) : ∃ b n k0 c0 cx ge rde tr', i < b.2 ∧
      Run C.code base (C.gasEnv env dyn) ok k i c tr' ∧ effects tr' = tr ∧
      GPart C expCost env dyn clob mem g0 b n k0 c0 cx ge rde k i c tr' g rd := by
  have hwx := worldX_gas G hw hc
  have start : ∀ (b : Nat × Nat) (n k : Nat) (c : List Word) (cx : SCx (Option (Paid F))) (tr : List (Obs (Paid F)))
      (g : Nat) (rd : List (Nat × Nat)), b ∈ C.prog.blocks →
      C.run (C.gasEnv env dyn) clob mem n = .running k b.1 cx → C.runG expCost env dyn clob mem g0 n = .running k b.1 cx g rd →
      Holds cx c → c.length ≤ 1024 → SecHead C.prog.insts C.spec C.prog.hasDyn b.1 →
      shown cx.trace = tr → b.1 < b.2 ∧ GPart C expCost env dyn clob mem g0 b n k c cx g rd k b.1 c tr g rd := by
    intro b n k c cx tr g rd hb hr hrg hh hl hhd ht
    have hs : C.prog.slice b.1 (b.1 - b.1) = [] := by unfold Prog.slice; simp
    refine ⟨(C.prog.blocks_ok.range b hb).2.1, ?_, hrg, ?_, hhd, ?_⟩
    · rw [← ht]; exact part_start hb hr hh hl
    · rw [hs]; rfl
    · rw [hs]; simp
  induction hr with
  | start hok =>
    obtain ⟨b, hb, h0⟩ := C.prog.leader_start (G.sound.live 0 [] (.start hok)) (by simp [Prog.isLeader])
    have := start b 0 0 [] { mem := mem } [] g0 [] hb (by rw [h0]; rfl) (by rw [h0]; rfl)
      ⟨rfl, fun d w h => by simp at h⟩ (by simp) (by rw [h0]; exact .inl rfl) rfl
    rw [h0] at this
    exact ⟨b, 0, 0, [], { mem := mem }, g0, [], [], this.1, .start hok, rfl, this.2⟩
  | @step k i i' c c' tr g rd d0 hr h0 hs hf hl hok hg ih =>
    obtain ⟨b, n, k0, c0, cx, ge, rde, tr', hlt, hrun, heff, P⟩ := ih
    obtain ⟨hreach, _⟩ := hrun.reach
    have hf' : Follows C.code (C.gasEnv env dyn) k i d0 c c' := hf
    have hrun' := Run.step hrun h0 hs hf' hl hok
    have heff' : effects (observed (C.gasEnv env dyn) k i d0 c ++ tr') = observed env k i d0 c ++ tr := by
      rw [effects_append, observed_effects, heff]
    obtain ⟨d, hd, hlive⟩ := G.sound.live i c hreach
    obtain ⟨hh, hio, hst⟩ := step_effect G.wf G.sound.ev hs hd
    have hlen := (step_len hio hst).1
    have hoff := not_halts_off hh
    rcases G.inv_step hwx P.part hlt hreach h0 hs hf' hl hok with ⟨h1, h2, h3⟩ | ⟨h1, h2, b', cx', h4, h5, h6, h7, h8⟩
    · subst h1
      exact ⟨b, n, k0, c0, cx, ge, rde, _, h2, hrun', heff', P.push G hc hreach h0 hd hlive hlen hoff h3 hg⟩
    · rw [← h1] at h2
      have P' := P.push G hc hreach h0 hd hlive hlen hoff h2 hg
      have hlv := leaves_of_step G.wf G.sound G.flagged hreach hs hd
      obtain ⟨n1, n2⟩ := next_head (spec := C.spec) h1 hd hlive hlv h4 h5 (G.sound.live i' c' hrun'.reach.1)
      have hG := G.gdone hwx hsf P' h1 P.part.le hd n2
      rw [h6] at hG
      have := start b' (n + 1) (k + 1) c' cx' _ _ _ h4 (by rw [h5]; exact h6) (by rw [h5]; exact hG) h7 hl
        (by rw [h5]; exact n1) h8
      rw [h5] at this
      exact ⟨b', n + 1, k + 1, c', cx', _, _, _, by rw [← h5] at this ⊢; exact this.1, hrun', heff', this.2⟩

variable {k i : Nat} {c : List Word} {tr : List (Obs F)} {g : Nat} {rd : List (Nat × Nat)} {d : InstData}

/-- The EVM is at the start of a block. -/
theorem GoodC.genters (hw : World base env) (hc : Costs base dyn expCost) (hsf : SumsFit C expCost)
    (hr : GasRun C.code base C.spec env dyn ok g0 k i c tr g rd) {b : Nat × Nat}
    (hb : b ∈ C.prog.blocks) (hi : b.1 = i) :
    ∃ n cx, C.runG expCost env dyn clob mem g0 n = .running k i cx g rd ∧ Holds cx c ∧ effects (shown cx.trace) = tr := by
  obtain ⟨b', n, k0, c0, cx, ge, rde, tr', hlt, hrun, heff, P⟩ := G.ginv (clob := clob) (mem := mem) hw hc hsf hr
  have hle := P.part.le
  have hb1 : b'.1 = i := by
    rcases Nat.lt_or_ge b'.1 i with hx | hx
    · exfalso
      have hrange := C.prog.blocks_ok.range b hb
      obtain ⟨x, hx1, rfl⟩ := List.getElem_of_mem hb
      have hb' := P.part.blk
      obtain ⟨y, hy1, rfl⟩ := List.getElem_of_mem hb'
      rcases Nat.lt_trichotomy x y with h1 | h1 | h1
      · have := C.prog.blocks_lt (List.getElem?_eq_getElem hx1) (List.getElem?_eq_getElem hy1) h1; omega
      · subst h1; omega
      · have := C.prog.blocks_lt (List.getElem?_eq_getElem hy1) (List.getElem?_eq_getElem hx1) h1; omega
    · omega
  have hk := P.part.k
  have hst := P.part.stack
  have hob := P.part.obs
  have hho := P.part.holds
  have hpaid := P.paid
  have hrung := P.rung
  rw [hb1] at hk hst hob hpaid hrung
  have hs : C.prog.slice i (i - i) = [] := by unfold Prog.slice; simp
  rw [part_self] at hst hob
  rw [hs] at hpaid
  cases hpaid
  rw [Nat.sub_self, Nat.add_zero] at hk
  subst hk
  refine ⟨n, cx, hrung, ?_, ?_⟩
  · rw [← hst]; exact hho
  · rw [← heff, ← hob]; rfl

/-- The EVM halts. -/
theorem GoodC.ghalts (hw : World base env) (hc : Costs base dyn expCost) (hsf : SumsFit C expCost)
    (hr : GasRun C.code base C.spec env dyn ok g0 k i c tr g rd) (hd : base[i]? = some d)
    (hh : Halts d) (hlen : d.stackIo.1 ≤ c.length) :
    ((d.flags.disabled || d.flags.unknown) = false → d.baseGas + dyn k i (c.take d.stackIo.1) ≤ g →
      ∃ n cx, C.runG expCost env dyn clob mem g0 n =
          .halted i cx (g - d.baseGas - dyn k i (c.take d.stackIo.1)) rd ∧
        effects (shown cx.trace) = observed env k i d c ++ tr ∧ cx.lenVar = (c.drop d.stackIo.1).length ∧
        ((o.dse = true → o.inspect = true) → Holds cx (c.drop d.stackIo.1))) ∧
    ((d.flags.disabled || d.flags.unknown) = true →
      ∃ n, C.runG expCost env dyn clob mem g0 n = .outOfGas ∨
        ∃ cx g' rd', C.runG expCost env dyn clob mem g0 n = .halted i cx g' rd' ∧
          effects (shown cx.trace) = observed env k i d c ++ tr) := by
  obtain ⟨b, n, k0, c0, cx, ge, rde, tr', hlt, hrun, heff, P⟩ := G.ginv (clob := clob) (mem := mem) hw hc hsf hr
  have hwx := worldX_gas G hw hc
  obtain ⟨hreach, hc1⟩ := hrun.reach
  obtain ⟨d1, hd1, hlive⟩ := G.sound.live i c hreach
  have he := G.sound.ev.inst _ _ _ hd hd1
  obtain ⟨h1, h2, cx', h3, h4, h5, h6⟩ := G.halts_part hwx P.part hlt hreach hc1 hd hh hlen
  have heff' : effects (observed (C.gasEnv env dyn) k i d c ++ tr') = observed env k i d c ++ tr := by
    rw [effects_append, observed_effects, heff]
  constructor
  · intro hoff hg
    rw [← h1] at h2
    have hoff1 : (d1.flags.disabled || d1.flags.unknown) = false := by rw [he.dis, he.unk]; exact hoff
    have P' := P.push G hc hreach hd hd1 hlive (by rw [he.io]; exact hlen) hoff1 h2 hg
    have hG := G.gdone hwx hsf P' h1 P.part.le hd1
      (.inl (branching_ends (by rw [halts_diverges (he.halts.2 hh)]; simp)))
    have hnr : ¬ readsGas C.spec d.opcode := by
      rcases hh with h | h | h
      · rw [h] at hoff; cases hoff
      · rw [h] at hoff; simp at hoff
      · have hx : ∀ x : UInt8, x.toNat ∈ [0x00, 0xf3, 0xfd, 0xfe, 0xff] →
            x ∉ [(0x5a : UInt8), 0xf0, 0xf1, 0xf2, 0xf4, 0xf5, 0xfa] ∧ x ≠ 0x55 := by decide +kernel
        rintro (hh | hh)
        · exact (hx _ h).1 hh
        · exact (hx _ h).2 hh.1
    rw [h3, if_neg hnr] at hG
    exact ⟨n + 1, cx', hG, by rw [h4, heff'], h5, h6⟩
  · intro _
    refine ⟨n + 1, ?_⟩
    rcases (full_run (expCost := expCost) G hwx h2 P.rung).1 with h | ⟨g', rd', h⟩
    · exact .inl h
    · rw [h3] at h
      exact .inr ⟨cx', g', rd', h, by rw [h4, heff']⟩

/-- The EVM jumps to an invalid destination. -/
theorem GoodC.ginvalid (hw : World base env) (hc : Costs base dyn expCost) (hsf : SumsFit C expCost)
    (hr : GasRun C.code base C.spec env dyn ok g0 k i c tr g rd) (hd : base[i]? = some d)
    (hh : ¬ Halts d) (hj : d.isJump = true) (hlen : d.stackIo.1 ≤ c.length) (hn : evmNext C.code i d c = none)
    (hg : d.baseGas + dyn k i (c.take d.stackIo.1) ≤ g) :
    ∃ n, C.runG expCost env dyn clob mem g0 n = .invalidJump := by
  obtain ⟨b, n, k0, c0, cx, ge, rde, tr', hlt, hrun, heff, P⟩ := G.ginv (clob := clob) (mem := mem) hw hc hsf hr
  have hwx := worldX_gas G hw hc
  obtain ⟨hreach, hc1⟩ := hrun.reach
  obtain ⟨d1, hd1, hlive⟩ := G.sound.live i c hreach
  have he := G.sound.ev.inst _ _ _ hd hd1
  obtain ⟨h1, h2, cx', h3, h4⟩ := G.invalid_part hwx P.part hlt hreach hc1 hd hh hj hlen hn
  rw [← h1] at h2
  have hoff1 : (d1.flags.disabled || d1.flags.unknown) = false := by
    rw [he.dis, he.unk]; exact not_halts_off hh
  have P' := P.push G hc hreach hd hd1 hlive (by rw [he.io]; exact hlen) hoff1 h2 hg
  have hG := G.gdone hwx hsf P' h1 P.part.le hd1 (.inl (jump_ends (by rw [he.isJump]; exact hj)))
  rw [h3] at hG
  exact ⟨n + 1, hG⟩

/-- The EVM reports an error of the stack or of an immediate. -/
theorem GoodC.gfails (hw : World base env) (hc : Costs base dyn expCost) (hsf : SumsFit C expCost)
    (hr : GasRun C.code base C.spec env dyn ok g0 k i c tr g rd) (hd : base[i]? = some d)
    (hfit : ∀ b ∈ C.prog.blocks,
      (blockAcc (C.prog.blockInsts b)).inputs + (blockAcc (C.prog.blockInsts b)).maxGrowth ≤ 32767)
    (hf : (c.length < d.stackIo.1 ∨ 1024 < c.length - d.stackIo.1 + d.stackIo.2) ∨ badImm C.code (i, d) = true) :
    ∃ n, C.runG expCost env dyn clob mem g0 n = .outOfGas ∨
      (∃ f, C.runG expCost env dyn clob mem g0 n = .stackError f) ∨
      (badImm C.code (i, d) = true ∧ C.runG expCost env dyn clob mem g0 n = .badImmediate i) := by
  obtain ⟨b, n, k0, c0, cx, ge, rde, tr', hlt, hrun, heff, P⟩ := G.ginv (clob := clob) (mem := mem) hw hc hsf hr
  have hwx := worldX_gas G hw hc
  obtain ⟨hreach, hc1⟩ := hrun.reach
  obtain ⟨d1, hd1, hlive⟩ := G.sound.live i c hreach
  have he := G.sound.ev.inst _ _ _ hd hd1
  have hbe : badImm C.code (i, d1) = badImm C.code (i, d) := by
    unfold badImm
    dsimp only
    rw [he.dis, he.unk, he.op]
  refine ⟨n + 1, ?_⟩
  have := P.stop G hwx hsf hlt hd1 hlive (hfit b P.part.blk) (by
    rcases hf with hf | hf
    · left
      rw [he.io]
      unfold stackFails
      rcases hf with h | h
      · exact .inl h
      · exact .inr (.inl h)
    · exact .inr (.inl (by rw [hbe]; exact hf)))
  rw [hbe] at this
  rcases this with h | h | ⟨h1, _, h2⟩
  · exact .inl h
  · exact .inr (.inl h)
  · exact .inr (.inr ⟨h1, h2⟩)

/-- The EVM is out of gas. -/
theorem GoodC.goog (hw : World base env) (hc : Costs base dyn expCost) (hsf : SumsFit C expCost)
    (hr : GasRun C.code base C.spec env dyn ok g0 k i c tr g rd) (hd : base[i]? = some d)
    (hfit : ∀ b ∈ C.prog.blocks,
      (blockAcc (C.prog.blockInsts b)).inputs + (blockAcc (C.prog.blockInsts b)).maxGrowth ≤ 32767)
    (hg : NoGas dyn k i d c g) :
    ∃ n, C.runG expCost env dyn clob mem g0 n = .outOfGas ∨
      ∃ f, C.runG expCost env dyn clob mem g0 n = .stackError f := by
  obtain ⟨b, n, k0, c0, cx, ge, rde, tr', hlt, hrun, heff, P⟩ := G.ginv (clob := clob) (mem := mem) hw hc hsf hr
  have hwx := worldX_gas G hw hc
  obtain ⟨hreach, hc1⟩ := hrun.reach
  obtain ⟨d1, hd1, hlive⟩ := G.sound.live i c hreach
  have he := G.sound.ev.inst _ _ _ hd hd1
  have hbe : badImm C.code (i, d1) = badImm C.code (i, d) := by
    unfold badImm
    dsimp only
    rw [he.dis, he.unk, he.op]
  obtain ⟨hoff, hg⟩ := hg
  have hoff1 : (d1.flags.disabled || d1.flags.unknown) = false := by
    rw [he.dis, he.unk]
    cases h1 : d.flags.disabled <;> cases h2 : d.flags.unknown <;> simp_all
  have hse := se_on (expCost := expCost) hd1 hoff1
  have hst : ∀ h : g < (C.se expCost i).1 + (C.se expCost i).2 ∨
      (badImm C.code (i, d1) = false ∧
      ∃ c' tr', Part C (C.gasEnv env dyn) clob mem b n k0 c0 cx (k + 1) (i + 1) c' tr' ∧
        g < (C.se expCost i).1 + ((C.se expCost i).2 + spent (events (C.ginst env dyn clob k0 b.1 (i, d1)).t c))),
      ∃ n, C.runG expCost env dyn clob mem g0 n = .outOfGas ∨
        ∃ f, C.runG expCost env dyn clob mem g0 n = .stackError f := by
    intro h
    refine ⟨n + 1, ?_⟩
    rcases h with h | ⟨h1, h⟩
    · rcases P.stop G hwx hsf hlt hd1 hlive (hfit b P.part.blk) (.inr (.inr (.inl h))) with q | q | ⟨_, q, _⟩
      · exact .inl q
      · exact .inr q
      · omega
    · rcases P.stop G hwx hsf hlt hd1 hlive (hfit b P.part.blk) (.inr (.inr (.inr h))) with q | q | ⟨q, _⟩
      · exact .inl q
      · exact .inr q
      · rw [h1] at q; cases q
  by_cases hbase : g < d.baseGas
  · refine hst (.inl ?_)
    rw [hse, he.gas]
    dsimp only
    omega
  · obtain ⟨hlen, hroom, hg⟩ := hg.resolve_left hbase
    have hlen1 : d1.stackIo.1 ≤ c.length := by rw [he.io]; exact hlen
    have hsplit := G.split_cost (k := k) hc hreach hd hd1 hlen1 hoff1
    have hP : ∀ {c' : List Word}, Part C (C.gasEnv env dyn) clob mem b n k0 c0 cx (k + 1) (i + 1) c'
        (observed (C.gasEnv env dyn) k i d c ++ tr') → badImm C.code (i, d1) = false →
        ∃ n, C.runG expCost env dyn clob mem g0 n = .outOfGas ∨
          ∃ f, C.runG expCost env dyn clob mem g0 n = .stackError f := by
      intro c' P' hb'
      refine hst (.inr ⟨hb', c', _, P', ?_⟩)
      have hsp := spent_at P.part hd1 P'
      rw [← observed_evolve he, observed_cost hoff1] at hsp
      rw [hsp, hsplit, hse, he.gas, he.io]
      exact hg
    obtain ⟨dd, hdd, hpr⟩ := G.progress hwx hrun
    rw [hd] at hdd; cases hdd
    rcases hpr with ⟨q1, q2⟩ | ⟨q1, q2, q3, q4⟩ | q1 | q1 | ⟨i', c', q1, q2, q3⟩
    · obtain ⟨h1, h2, _⟩ := G.halts_part hwx P.part hlt hreach hc1 hd q1 q2
      rw [← h1] at h2
      exact hP h2 (by rw [hbe]; exact halts_imm q1)
    · obtain ⟨h1, h2, _⟩ := G.invalid_part hwx P.part hlt hreach hc1 hd q1 q2 q3 q4
      rw [← h1] at h2
      exact hP h2 (by rw [hbe]; exact jump_imm q2)
    · omega
    · exfalso
      have hq : d.opcode.toNat ∈ [0xe6, 0xe7, 0xe8] := by
        obtain ⟨_, h | h⟩ := undecodable_bad.1 q1
        · have := h.1; simp only [List.mem_cons, List.not_mem_nil, or_false] at this ⊢; omega
        · rw [h.1]; decide
      have hx : ∀ x : UInt8, x.toNat ∈ [0xe6, 0xe7, 0xe8] → silent x.toNat = true ∧ x.toNat ≠ 0x0a := by decide +kernel
      rw [hc.quiet k i d _ hd (hx _ hq).1 (hx _ hq).2] at hg
      omega
    · have hk := P.part.k
      have q2' := q2
      rw [hk] at q2
      obtain ⟨fit, hsn, him⟩ := G.step (clob := clobAt clob k0 b.1) hwx hreach hd q1 q2 hd1
      rw [← hk] at fit
      exact hP (P.part.push hlt hd1 fit q3 hsn him) him

end ends

/-- An outcome that is not `running` is final. -/
def GOut.final : GOut F → Bool
  | .running _ _ _ _ _ => false
  | _ => true

section final
variable {C : Compiled} {expCost : Word → Nat} {env : Env F} {dyn : Nat → Nat → List Word → Nat}
  {clob : Nat → Int → Word} {mem : Int → Word} {g0 n m : Nat}

theorem runG_final (h : (C.runG expCost env dyn clob mem g0 n).final = true) (m : Nat) :
    C.runG expCost env dyn clob mem g0 (n + m) = C.runG expCost env dyn clob mem g0 n := by
  induction m with
  | zero => rfl
  | succ m ih =>
    rw [← Nat.add_assoc, Compiled.runG, ih]
    revert h
    generalize C.runG expCost env dyn clob mem g0 n = o
    intro h
    cases o <;> first | rfl | cases h

theorem runG_final_eq (h : (C.runG expCost env dyn clob mem g0 n).final = true)
    (h' : (C.runG expCost env dyn clob mem g0 m).final = true) :
    C.runG expCost env dyn clob mem g0 n = C.runG expCost env dyn clob mem g0 m := by
  rcases Nat.le_total n m with hl | hl
  · rw [← runG_final h (m - n), Nat.add_sub_cancel' hl]
  · rw [← runG_final h' (n - m), Nat.add_sub_cancel' hl]

end final

/-- How an execution with gas ends at instruction `d`. -/
def GEnds (code : Code) (insts : List InstData) (env : Env F) (dyn : Nat → Nat → List Word → Nat)
    (ok : Nat → List Word → Prop) (k i : Nat) (d : InstData) (c : List Word) (g : Nat) : Prop :=
  (Halts d ∧ d.stackIo.1 ≤ c.length ∧ ((d.flags.disabled || d.flags.unknown) = true ∨
      d.baseGas + dyn k i (c.take d.stackIo.1) ≤ g)) ∨
  (¬ Halts d ∧ d.isJump = true ∧ d.stackIo.1 ≤ c.length ∧ evmNext code i d c = none ∧
      d.baseGas + dyn k i (c.take d.stackIo.1) ≤ g) ∨
  (c.length < d.stackIo.1 ∨ 1024 < c.length - d.stackIo.1 + d.stackIo.2) ∨
  badImm code (i, d) = true ∨ NoGas dyn k i d c g ∨
  ∃ i' c', Step code insts i c i' c' ∧ Follows code env k i d c c' ∧ c'.length ≤ 1024 ∧ ¬ ok i' c'

theorem GoodC.goutcome {base : List InstData} {ok : Nat → List Word → Prop} {o : WOpts} {C : Compiled}
    (G : GoodC base ok o C) {expCost : Word → Nat} {env : Env F} {dyn : Nat → Nat → List Word → Nat}
    {clob : Nat → Int → Word} {mem : Int → Word} {g0 : Nat} (hw : World base env) (hc : Costs base dyn expCost)
    (hsf : SumsFit C expCost) (h0 : ok 0 []) {n : Nat} (hn : (C.runG expCost env dyn clob mem g0 n).final = true) :
    ∃ k i c tr g rd d, GasRun C.code base C.spec env dyn ok g0 k i c tr g rd ∧ base[i]? = some d ∧
      GEnds C.code base env dyn ok k i d c g := by
  have hwx := worldX_gas G hw hc
  have bound : ∀ {k i c tr g rd}, GasRun C.code base C.spec env dyn ok g0 k i c tr g rd →
      k < (n + 1) * (C.prog.insts.length + 1) := by
    intro k i c tr g rd hr
    obtain ⟨b, m, k0, c0, cx, ge, rde, tr', hlt, hrun, heff, P⟩ := G.ginv (clob := clob) (mem := mem) hw hc hsf hr
    have hm : m < n := by
      rcases Nat.lt_or_ge m n with h | h
      · exact h
      · exfalso
        have := runG_final hn (m - n)
        rw [Nat.add_sub_cancel' h, P.rung] at this
        rw [← this] at hn
        cases hn
    have h1 := G.count P.part.run
    have h2 := C.prog.blocks_ok.range b P.part.blk
    have h3 := P.part.k
    have h4 : m * C.prog.insts.length ≤ n * C.prog.insts.length := Nat.mul_le_mul_right _ (by omega)
    have h5 : (n + 1) * (C.prog.insts.length + 1) = n * C.prog.insts.length + n + C.prog.insts.length + 1 := by
      rw [Nat.add_mul, Nat.mul_add, Nat.mul_one, Nat.one_mul]; omega
    omega
  have key : ∀ (m : Nat) {k i c tr g rd}, (n + 1) * (C.prog.insts.length + 1) ≤ k + m →
      GasRun C.code base C.spec env dyn ok g0 k i c tr g rd →
      ∃ k i c tr g rd d, GasRun C.code base C.spec env dyn ok g0 k i c tr g rd ∧ base[i]? = some d ∧
        GEnds C.code base env dyn ok k i d c g := by
    intro m
    induction m with
    | zero =>
      intro k i c tr g rd hm hr
      have := bound hr
      omega
    | succ m ih =>
      intro k i c tr g rd hm hr
      obtain ⟨b, n', k0, c0, cx, ge, rde, tr', hlt, hrun, heff, P⟩ := G.ginv (clob := clob) (mem := mem) hw hc hsf hr
      obtain ⟨d, hd, h⟩ := G.progress hwx hrun
      have hno : ∀ {x : Nat}, ¬ (d.flags.disabled || d.flags.unknown) = true →
          ¬ (d.flags.disabled = true ∨ d.flags.unknown = true) := by
        intro _ h; simpa using h
      rcases h with ⟨q1, q2⟩ | ⟨q1, q2, q3, q4⟩ | q1 | q1 | ⟨i', c', q1, q2, q3⟩
      · refine ⟨k, i, c, tr, g, rd, d, hr, hd, ?_⟩
        by_cases hoff : (d.flags.disabled || d.flags.unknown) = true
        · exact .inl ⟨q1, q2, .inl hoff⟩
        · by_cases hg : d.baseGas + dyn k i (c.take d.stackIo.1) ≤ g
          · exact .inl ⟨q1, q2, .inr hg⟩
          · by_cases hroom : c.length - d.stackIo.1 + d.stackIo.2 ≤ 1024
            · exact .inr (.inr (.inr (.inr (.inl ⟨hno (x := 0) hoff, .inr ⟨q2, hroom, by omega⟩⟩))))
            · exact .inr (.inr (.inl (.inr (by omega))))
      · refine ⟨k, i, c, tr, g, rd, d, hr, hd, ?_⟩
        by_cases hg : d.baseGas + dyn k i (c.take d.stackIo.1) ≤ g
        · exact .inr (.inl ⟨q1, q2, q3, q4, hg⟩)
        · by_cases hroom : c.length - d.stackIo.1 + d.stackIo.2 ≤ 1024
          · refine .inr (.inr (.inr (.inr (.inl ⟨hno (x := 0) ?_, .inr ⟨q3, hroom, by omega⟩⟩))))
            rw [not_halts_off q1]; simp
          · exact .inr (.inr (.inl (.inr (by omega))))
      · exact ⟨k, i, c, tr, g, rd, d, hr, hd, .inr (.inr (.inl q1))⟩
      · exact ⟨k, i, c, tr, g, rd, d, hr, hd, .inr (.inr (.inr (.inl q1)))⟩
      · obtain ⟨d1, hd1, he⟩ := G.sound.ev.get hd
        obtain ⟨hh, hio, hst⟩ := step_effect G.wf G.sound.ev q1 hd1
        obtain ⟨l1, l2, _⟩ := step_len hio hst
        rw [he.io] at l1 l2
        by_cases hg : d.baseGas + dyn k i (c.take d.stackIo.1) ≤ g
        · by_cases hok : ok i' c'
          · exact ih (by omega) (.step hr hd q1 q2 q3 hok hg)
          · exact ⟨k, i, c, tr, g, rd, d, hr, hd, .inr (.inr (.inr (.inr (.inr ⟨i', c', q1, q2, q3, hok⟩))))⟩
        · refine ⟨k, i, c, tr, g, rd, d, hr, hd, .inr (.inr (.inr (.inr (.inl ⟨hno (x := 0) ?_, .inr ⟨l1, ?_, ?_⟩⟩))))⟩
          · have := not_halts_off hh
            rw [he.dis, he.unk] at this
            rw [this]; simp
          · omega
          · omega
  exact key _ (Nat.le_add_left _ _) (.start h0)

/-! ## When the sums fit -/

theorem sum_le_of_forall {l : List Nat} {M : Nat} (h : ∀ x ∈ l, x ≤ M) : l.sum ≤ l.length * M := by
  induction l with
  | nil => simp
  | cons x l ih =>
    have := ih (fun y hy => h y (by simp [hy]))
    have := h x (by simp)
    rw [List.sum_cons, List.length_cons, Nat.add_mul]
    omega

theorem sum_add_map {α : Type} (f h : α → Nat) : ∀ l : List α, (l.map fun x => f x + h x).sum = (l.map f).sum + (l.map h).sum
  | [] => rfl
  | x :: l => by
    have := sum_add_map f h l
    simp only [List.map_cons, List.sum_cons]; omega

theorem sum_filter_le {α : Type} (f : α → Nat) (p : α → Bool) : ∀ l : List α, ((l.filter p).map f).sum ≤ (l.map f).sum
  | [] => Nat.le_refl _
  | x :: l => by
    have := sum_filter_le f p l
    rw [List.filter_cons]
    split
    · simp only [List.map_cons, List.sum_cons]; omega
    · simp only [List.map_cons, List.sum_cons]; omega

theorem sum_mem_flatten {α : Type} (f : α → Nat) : ∀ (L : List (List α)) (S : List α), S ∈ L →
    (S.map f).sum ≤ (L.flatten.map f).sum
  | [], _, h => by simp at h
  | X :: L, S, h => by
    rw [List.flatten_cons, List.map_append, List.sum_append]
    rcases List.mem_cons.1 h with rfl | h
    · omega
    · have := sum_mem_flatten f L S h; omega

theorem expExtra_le {o : UInt8} {a b : Option Word} {expCost : Word → Nat} {M : Nat} (h : ∀ w, expCost w ≤ M) :
    (expExtra o a b expCost).getD 0 ≤ M := by
  unfold expExtra
  split
  · split
    · split
      · exact h _
      · exact Nat.zero_le _
    · exact Nat.zero_le _
  · exact Nat.zero_le _

/-- If all costs together fit, so does every section. -/
theorem sumsFit_of {C : Compiled} {base : List InstData} (hev : Evolves base C.prog.insts) {expCost : Word → Nat} {M : Nat}
    (hM : ∀ w, expCost w ≤ M) (hs : (base.map (·.baseGas)).sum + base.length * M < 2 ^ 32) : SumsFit C expCost := by
  intro j S hS
  have hmem : S ∈ (Spec.table C.prog.insts C.spec C.prog.hasDyn).filterMap id := by
    rw [List.mem_filterMap]
    refine ⟨some S, ?_, rfl⟩
    cases hj : (Spec.table C.prog.insts C.spec C.prog.hasDyn)[j]? with
    | none => rw [hj] at hS; cases hS
    | some q => rw [hj] at hS; cases q with
      | none => cases hS
      | some S' => cases hS; exact List.mem_of_getElem? hj
  have h1 := sum_mem_flatten (fun p : InstData × Nat => p.1.baseGas + (C.extra expCost p.2).getD 0) _ S hmem
  rw [C20_partition] at h1
  have h2 := sum_filter_le (fun p : InstData × Nat => p.1.baseGas + (C.extra expCost p.2).getD 0)
    (fun p => !p.1.flags.deadCode) C.prog.insts.zipIdx
  have h3 := sum_add_map (fun p : InstData × Nat => p.1.baseGas) (fun p => (C.extra expCost p.2).getD 0) C.prog.insts.zipIdx
  have h4 : (C.prog.insts.zipIdx.map fun p : InstData × Nat => p.1.baseGas) = base.map (·.baseGas) := by
    rw [show (fun p : InstData × Nat => p.1.baseGas) = (fun d : InstData => d.baseGas) ∘ Prod.fst from rfl, ← List.map_map]
    rw [show C.prog.insts.zipIdx.map Prod.fst = C.prog.insts by simp]
    apply List.ext_getElem?
    intro q
    rw [List.getElem?_map, List.getElem?_map]
    cases hq : base[q]? with
    | none =>
      rw [List.getElem?_eq_none_iff] at hq
      rw [List.getElem?_eq_none (by rw [hev.len]; exact hq)]
    | some d0 =>
      obtain ⟨d, hd, he⟩ := hev.get hq
      rw [hd]
      simp [he.gas]
  have h5 : (C.prog.insts.zipIdx.map fun p : InstData × Nat => (C.extra expCost p.2).getD 0).sum ≤ base.length * M := by
    have := sum_le_of_forall (l := C.prog.insts.zipIdx.map fun p : InstData × Nat => (C.extra expCost p.2).getD 0) (M := M)
      (by
        intro x hx
        obtain ⟨p, _, rfl⟩ := List.mem_map.1 hx
        unfold Compiled.extra
        cases C.prog.insts[p.2]? with
        | none => exact Nat.zero_le _
        | some d => exact expExtra_le hM)
    rw [List.length_map, List.length_zipIdx, hev.len] at this
    exact this
  rw [h4] at h3
  omega

end Verif
