import Verif.Lemmas.WholeGasCode
/-!
# The simulation invariant of whole programs with gas
-/

namespace Verif
open Spec
variable {F : Type}

/-- `Part`, and the compiled program entered the block with gas `ge`, of which `g` is left. -/
structure GPart (C : Compiled) (expCost : Word → Nat) (env : Env F) (dyn : Nat → Nat → List Word → Nat)
    (clob : Nat → Int → Word) (mem : Int → Word) (g0 : Nat) (b : Nat × Nat) (n k0 : Nat) (c0 : List Word)
    (cx : SCx (Option (Paid F))) (ge : Nat) (rde : List (Nat × Nat)) (k i : Nat) (c : List Word)
    (tr : List (Obs (Paid F))) (g : Nat) (rd : List (Nat × Nat)) : Prop where
  part : Part C (C.gasEnv env dyn) clob mem b n k0 c0 cx k i c tr
  rung : C.runG expCost env dyn clob mem g0 n = .running k0 b.1 cx ge rde
  paid : payEach (gitems (C.se expCost) ((C.prog.slice b.1 (i - b.1)).map (C.ginst env dyn clob k0 b.1)) c0) ge rde =
    some (g, rd)
  head : SecHead C.prog.insts C.spec C.prog.hasDyn b.1
  live : ∀ x ∈ C.prog.slice b.1 (i - b.1), x.2.flags.deadCode = false ∧
    (x.2.flags.disabled || x.2.flags.unknown) = false

theorem run_block {E : Type} {C : Compiled} {env : Env E} {clob : Nat → Int → Word} {mem : Int → Word} {n k i : Nat}
    {cx : SCx (Option E)} (h : C.run env clob mem n = .running k i cx) :
    C.run env clob mem (n + 1) = C.block env clob k i cx := by
  rw [Compiled.run, h]

section part
variable {C : Compiled} {expCost : Word → Nat} {env : Env F} {dyn : Nat → Nat → List Word → Nat}
  {clob : Nat → Int → Word} {mem : Int → Word} {g0 : Nat} {b : Nat × Nat} {n k0 : Nat} {c0 : List Word}
  {cx : SCx (Option (Paid F))} {ge : Nat} {rde : List (Nat × Nat)} {k i : Nat} {c c' : List Word}
  {tr obs : List (Obs (Paid F))} {g : Nat} {rd : List (Nat × Nat)} {d d0 : InstData}
  {base : List InstData} {ok : Nat → List Word → Prop} {o : WOpts}

theorem slice_push (hle : b.1 ≤ i) (hd : C.prog.insts[i]? = some d) :
    C.prog.slice b.1 (i + 1 - b.1) = C.prog.slice b.1 (i - b.1) ++ [(i, d)] := by
  have := slice_succ (p := C.prog) (s := b.1) (n := i - b.1) (d := d) (by rw [show b.1 + (i - b.1) = i by omega]; exact hd)
  rw [show b.1 + (i - b.1) = i by omega] at this
  rw [← this, show i + 1 - b.1 = i - b.1 + 1 by omega]

/-- What the code of the next instruction charges. -/
theorem spent_at (P : Part C (C.gasEnv env dyn) clob mem b n k0 c0 cx k i c tr) (hd : C.prog.insts[i]? = some d)
    (P' : Part C (C.gasEnv env dyn) clob mem b n k0 c0 cx (k + 1) (i + 1) c' (obs ++ tr)) :
    spent (events (C.ginst env dyn clob k0 b.1 (i, d)).t c) = costObs obs := by
  have h1 := P.obs
  have h2 := P'.obs
  unfold Compiled.part at h1 h2
  have hst := P.stack
  unfold Compiled.part at hst
  rw [slice_push P.le hd, List.map_append, runEvents_append, hst] at h2
  simp only [List.map_cons, List.map_nil, runEvents, List.nil_append] at h2
  rw [shown_append, List.append_assoc, h1] at h2
  have h3 := List.append_cancel_right h2
  rw [spent_shown]
  show costObs (shown (events (toT C.code C.ai (actOf C.code C.prog (C.gasEnv env dyn) k0 b.1) (clobAt clob k0 b.1) (i, d)) c)) = _
  rw [h3]

/-- One more instruction. -/
theorem GPart.push (P : GPart C expCost env dyn clob mem g0 b n k0 c0 cx ge rde k i c tr g rd)
    (G : GoodC base ok o C) (hc : Costs base dyn expCost) (hr : Reach C.code base ok i c) (h0 : base[i]? = some d0)
    (hd : C.prog.insts[i]? = some d) (hlive : d.flags.deadCode = false)
    (hl : d.stackIo.1 ≤ c.length) (hoff : (d.flags.disabled || d.flags.unknown) = false)
    (P' : Part C (C.gasEnv env dyn) clob mem b n k0 c0 cx (k + 1) (i + 1) c'
      (observed (C.gasEnv env dyn) k i d0 c ++ tr))
    (hg : d0.baseGas + dyn k i (c.take d0.stackIo.1) ≤ g) :
    GPart C expCost env dyn clob mem g0 b n k0 c0 cx ge rde (k + 1) (i + 1) c'
      (observed (C.gasEnv env dyn) k i d0 c ++ tr) (g - d0.baseGas - dyn k i (c.take d0.stackIo.1))
      (if readsGas C.spec d0.opcode then (k, g - d0.baseGas) :: rd else rd) := by
  have he := G.sound.ev.inst _ _ _ h0 hd
  have hsl := slice_push P.part.le hd
  refine ⟨P', P.rung, ?_, P.head, ?_⟩
  · have hsp := spent_at P.part hd P'
    rw [← observed_evolve he, observed_cost hoff] at hsp
    have hsplit := G.split_cost (k := k) hc hr h0 hd hl hoff
    have hst := P.part.stack
    unfold Compiled.part at hst
    rw [hsl, List.map_append, gitems_append, payEach_append, P.paid, ginst_t, hst]
    simp only [Option.bind_some, List.map_cons, List.map_nil, gitems]
    rw [payEach_cons]
    have hse := se_on (expCost := expCost) hd hoff
    have e1 : (C.ginst env dyn clob k0 b.1 (i, d)).idx = i := rfl
    have e2 : (C.ginst env dyn clob k0 b.1 (i, d)).k = k := P.part.k.symm
    have e3 : (C.ginst env dyn clob k0 b.1 (i, d)).reads = decide (readsGas C.spec d0.opcode) := by
      rw [← he.op]; exact reads_iff _ _
    dsimp only
    rw [hsp, e1, e2, e3, hsplit, hse]
    dsimp only
    rw [← he.gas, ← he.io] at hg ⊢
    rw [if_neg (by omega)]
    simp only [payEach, decide_eq_true_eq]
  · rw [hsl]
    intro x hx
    rcases List.mem_append.1 hx with hx | hx
    · exact P.live x hx
    · rw [List.mem_singleton.1 hx]; exact ⟨hlive, hoff⟩

/-- The compiled program does not get past an instruction at which the EVM stops. -/
theorem GPart.stop (P : GPart C expCost env dyn clob mem g0 b n k0 c0 cx ge rde k i c tr g rd)
    (G : GoodC base ok o C) (hw : WorldX C.ai base (C.gasEnv env dyn)) (hsf : SumsFit C expCost) (hi : i < b.2)
    (hd : C.prog.insts[i]? = some d) (hlive : d.flags.deadCode = false)
    (hfit : (blockAcc (C.prog.blockInsts b)).inputs + (blockAcc (C.prog.blockInsts b)).maxGrowth ≤ 32767)
    (hst : stackFails c.length [d.stackIo] ∨ badImm C.code (i, d) = true ∨
      g < (C.se expCost i).1 + (C.se expCost i).2 ∨
      (∃ c' tr', Part C (C.gasEnv env dyn) clob mem b n k0 c0 cx (k + 1) (i + 1) c' tr' ∧
        g < (C.se expCost i).1 + ((C.se expCost i).2 + spent (events (C.ginst env dyn clob k0 b.1 (i, d)).t c)))) :
    C.runG expCost env dyn clob mem g0 (n + 1) = .outOfGas ∨
      (∃ f, C.runG expCost env dyn clob mem g0 (n + 1) = .stackError f) ∨
      (badImm C.code (i, d) = true ∧ (C.se expCost i).1 + (C.se expCost i).2 ≤ g ∧
        C.runG expCost env dyn clob mem g0 (n + 1) = .badImmediate i) := by
  obtain ⟨l', he, hfind⟩ := G.find P.part.blk
  obtain ⟨s1, s2, s3, s4, s5, s6, s7, s8⟩ := P.part.ready G hw hfit he
  have hle := P.part.le
  have hrg := C.prog.blocks_ok.range b P.part.blk
  have hsl := slice_push hle hd
  have hm : (List.replicate c0.length true).length = c0.length := by simp
  obtain ⟨q1, q2, q3⟩ := gsecs_ok (expCost := expCost) (env := env) (dyn := dyn) (clob := clob) G k0 s1 hfit s2
  have hat : (C.prog.blockInsts b)[i - b.1]? = some (i, d) := (P.part.take hi hd).2
  have htk1 : (C.prog.blockInsts b).take (i - b.1 + 1) = C.prog.slice b.1 (i - b.1) ++ [(i, d)] := by
    rw [List.take_add_one, s3, hat]; rfl
  obtain ⟨p', hp'⟩ : ∃ p', l'[i - b.1]? = some p' := by
    refine ⟨_, List.getElem?_eq_getElem ?_⟩
    rw [s1.length]
    exact (List.getElem?_eq_some_iff.1 hat).1
  obtain ⟨y, m, h1, h2, _⟩ := s1.at_ _ _ hp'
  rw [hat] at h1; cases h1
  have hmk : ∀ (p : Nat × InstData) m, (C.ginst env dyn clob k0 b.1 (p.1, mark m p.2)).idx = (C.ginst env dyn clob k0 b.1 p).idx ∧
      (C.ginst env dyn clob k0 b.1 (p.1, mark m p.2)).k = (C.ginst env dyn clob k0 b.1 p).k ∧
      (C.ginst env dyn clob k0 b.1 (p.1, mark m p.2)).reads = (C.ginst env dyn clob k0 b.1 p).reads := by
    intro p m; cases m <;> exact ⟨rfl, rfl, rfl⟩
  have hgi : gitems (C.se expCost) ((l'.take (i - b.1)).map (C.ginst env dyn clob k0 b.1)) c0 =
      gitems (C.se expCost) ((C.prog.slice b.1 (i - b.1)).map (C.ginst env dyn clob k0 b.1)) c0 := by
    rw [← s3]
    refine gitems_marked s1 hmk (i - b.1) fun j hj => ?_
    rw [ginst_t, ginst_t]
    exact s8 j hj
  have hcost := payEach_cost _ _ _ P.paid
  have hbadx : (C.ginst env dyn clob k0 b.1 p').bad = badImm C.code (i, d) := by
    show badImm C.code p' = _
    rw [h2]; exact badImm_mark (x := (i, d))
  have hstop := gasSections_stop (se := C.se expCost)
    (C.gsecs expCost env dyn clob k0 { start := b.1, stop := b.2, insts := l' }) (i - b.1)
    (x := C.ginst env dyn clob k0 b.1 p') q3 ((holds_iff hm (allTrue _)).2 P.part.holds) hm
    (by
      intro A s B hsp hA
      unfold Compiled.gsecs at hsp
      dsimp only at hsp
      obtain ⟨A1, R1, e1, rfl, e3⟩ := List.map_eq_append_iff.1 hsp
      obtain ⟨s', B1, rfl, rfl, rfl⟩ := List.map_eq_cons_iff.1 e3
      have hAl : ((A1.map fun s => (C.sectionGas expCost s, s.map (C.ginst env dyn clob k0 b.1))).map
          Prod.snd).flatten.length = A1.flatten.length := by
        rw [List.map_map]
        show ((A1.map (List.map (C.ginst env dyn clob k0 b.1))).flatten).length = _
        rw [← List.map_flatten, List.length_map]
      rw [hAl] at hA ⊢
      dsimp only
      obtain ⟨t1, t2⟩ := secs_static (env := env) (dyn := dyn) (clob := clob) (k0 := k0) hsf P.part.blk P.head s1 e1
        (e := i - b.1 + 1) (by omega) (by
          rw [htk1]
          intro x hx
          rcases List.mem_append.1 hx with hx | hx
          · exact (P.live x hx).1
          · rw [List.mem_singleton.1 hx]; exact hlive)
      refine ⟨fun hle2 => ?_, t1⟩
      rw [List.length_map] at hle2
      refine t2 (by omega) ?_ ?_
      · left
        obtain ⟨_, _, _, c4⟩ := split_cut e1
        rcases c4 with c4 | c4
        · exfalso
          have hf := split_flatten C.spec l'
          rw [e1, c4] at hf
          have := congrArg List.length hf
          simp only [List.flatten_append, List.flatten_cons, List.flatten_nil, List.append_nil, List.length_append] at this
          have hlt := (List.getElem?_eq_some_iff.1 hp').1
          omega
        · exact c4
      · intro x hx
        obtain ⟨j, hj⟩ := List.mem_iff_getElem?.1 hx
        have hjl := (List.getElem?_eq_some_iff.1 hj).1
        have hf := split_flatten C.spec l'
        rw [e1] at hf
        simp only [List.flatten_append, List.flatten_cons] at hf
        have hl1 : l'[A1.flatten.length + j]? = some x := by
          rw [← hf, List.getElem?_append_right (by omega), Nat.add_sub_cancel_left, List.getElem?_append_left hjl]
          exact hj
        obtain ⟨p, m, u1, u2, _⟩ := s1.at_ _ _ hl1
        have hmem : p ∈ C.prog.slice b.1 (i - b.1) := by
          rw [← s3]
          refine List.mem_of_getElem? (i := A1.flatten.length + j) ?_
          rw [List.getElem?_take_of_lt (by omega)]; exact u1
        rw [u2, (mark_flags (m := m) (d := p.2)).1, (mark_flags (m := m) (d := p.2)).2.1]
        exact (P.live p hmem).2)
    (by rw [q1, List.getElem?_map, hp']; rfl)
    (by rw [q1, ← List.map_take, ginst_t]; exact s5) (by rw [q1, ← List.map_take, ginst_t]; exact s6)
    (by rw [q1, ← List.map_take, ginst_t]; exact s4)
    (by
      rw [q1, ← List.map_take]
      intro y hy
      obtain ⟨x, hx, rfl⟩ := List.mem_map.1 hy
      obtain ⟨j, hj⟩ := List.mem_iff_getElem?.1 hx
      have hjl : j < i - b.1 := by
        have := (List.getElem?_eq_some_iff.1 hj).1
        rw [List.length_take] at this; omega
      rw [List.getElem?_take_of_lt hjl] at hj
      obtain ⟨p, m, u1, u2, _⟩ := s1.at_ _ _ hj
      show badImm C.code x = false
      rw [u2, badImm_mark]
      refine P.part.imm p ?_
      rw [← s3]
      refine List.mem_of_getElem? (i := j) ?_
      rw [List.getElem?_take_of_lt hjl]; exact u1) ge rde
    (by
      unfold Stops
      rw [q1, ← List.map_take, hgi, ginst_t, s7, hbadx]
      have hidx : (C.ginst env dyn clob k0 b.1 p').idx = i := by rw [h2]; rfl
      rw [hidx]
      rcases hst with h | h | h | ⟨c', tr', P', h⟩
      · left
        show stackFails c.length [(p'.2.stackIo.1, p'.2.stackIo.2)]
        have hio : p'.2.stackIo = d.stackIo := by rw [h2]; cases m <;> rfl
        rw [hio]; exact h
      · exact .inr (.inl h)
      · exact .inr (.inr (.inl (by omega)))
      · right; right; right
        obtain ⟨_, _, u3, u4, u5, _, _, u8⟩ := P'.ready G hw hfit he
        rw [show i + 1 - b.1 = i - b.1 + 1 by omega] at u3 u4 u5 u8
        have htl : l'.take (i - b.1 + 1) = l'.take (i - b.1) ++ [p'] := by
          rw [List.take_add_one, hp']; rfl
        have hgi1 : gitems (C.se expCost) ((l'.take (i - b.1 + 1)).map (C.ginst env dyn clob k0 b.1)) c0 =
            gitems (C.se expCost) (((C.prog.blockInsts b).take (i - b.1 + 1)).map (C.ginst env dyn clob k0 b.1)) c0 := by
          refine gitems_marked s1 hmk (i - b.1 + 1) fun j hj => ?_
          rw [ginst_t, ginst_t]
          exact u8 j hj
        rw [htl, List.map_append] at u4 u5
        have u5' := ((runOk_append _ _ _).1 u5).2
        have u4' := ((runReadable_append _ _ _).1 u4).2
        rw [s7] at u5'
        refine ⟨u5'.1, u4'.1, ?_⟩
        have hcat : (l'.take (i - b.1)).map (C.ginst env dyn clob k0 b.1) ++ [C.ginst env dyn clob k0 b.1 p'] =
            (l'.take (i - b.1 + 1)).map (C.ginst env dyn clob k0 b.1) := by rw [htl, List.map_append]; rfl
        rw [hcat, hgi1, htk1, List.map_append, gitems_append, costOf_append, ginst_t]
        have hst := P.part.stack
        unfold Compiled.part at hst
        rw [hst]
        have : costOf (gitems (C.se expCost) ([(i, d)].map (C.ginst env dyn clob k0 b.1)) c) =
            (C.se expCost i).1 + ((C.se expCost i).2 + spent (events (C.ginst env dyn clob k0 b.1 (i, d)).t c)) := by
          simp only [List.map_cons, List.map_nil, gitems, costOf, List.sum_cons, List.sum_nil, Nat.add_zero]
          rfl
        omega)
  have hrun := runG_block (mem := mem) (g0 := g0) P.rung hfind
  rcases hstop with h | ⟨f, cx', h⟩ | ⟨hb, hco, cx', h⟩
  · left; rw [hrun, h]
  · right; left; exact ⟨f, by rw [hrun, h]⟩
  · right; right
    rw [q1, ← List.map_take, hgi] at hco
    have hidx : (C.ginst env dyn clob k0 b.1 p').idx = i := by rw [h2]; rfl
    rw [hidx] at hco
    refine ⟨by rw [← hbadx]; exact hb, by omega, ?_⟩
    rw [hrun, h]
    show GOut.badImmediate (C.ginst env dyn clob k0 b.1 p').idx = _
    rw [h2]; rfl

/-- The whole block. -/
theorem full_run (G : GoodC base ok o C) (hw : WorldX C.ai base (C.gasEnv env dyn))
    (P : Part C (C.gasEnv env dyn) clob mem b n k0 c0 cx k b.2 c tr)
    (hrun : C.runG expCost env dyn clob mem g0 n = .running k0 b.1 cx ge rde) :
    (C.runG expCost env dyn clob mem g0 (n + 1) = .outOfGas ∨
      ∃ g rd, C.runG expCost env dyn clob mem g0 (n + 1) = (C.run (C.gasEnv env dyn) clob mem (n + 1)).withGas g rd) ∧
    (SumsFit C expCost → SecHead C.prog.insts C.spec C.prog.hasDyn b.1 →
      (∀ x ∈ C.prog.blockInsts b, x.2.flags.deadCode = false ∧ (x.2.flags.disabled || x.2.flags.unknown) = false) →
      ((∃ y, (C.prog.blockInsts b).getLast? = some y ∧ y.2.endsSection C.spec = true) ∨
        specRest C.spec C.prog.hasDyn (C.prog.insts.drop b.2) b.2 = []) →
      ∀ g rd, payEach (gitems (C.se expCost) ((C.prog.blockInsts b).map (C.ginst env dyn clob k0 b.1)) c0) ge rde =
        some (g, rd) →
      C.runG expCost env dyn clob mem g0 (n + 1) = (C.run (C.gasEnv env dyn) clob mem (n + 1)).withGas g rd) := by
  obtain ⟨l', he, hfind⟩ := G.find P.blk
  have hrg := C.prog.blocks_ok.range b P.blk
  have hok := P.ok
  have hlow := P.low
  unfold Compiled.part at hok hlow
  have hfit := acc_small hok hlow
  change (blockAcc (C.prog.blockInsts b)).inputs + (blockAcc (C.prog.blockInsts b)).maxGrowth ≤ 32767 at hfit
  obtain ⟨s1, s2, s3, s4, s5, s6, s7, s8⟩ := P.ready G hw hfit he
  have hlen : (C.prog.blockInsts b).length = b.2 - b.1 := slice_len' (by omega)
  have htk : l'.take (b.2 - b.1) = l' := by rw [← hlen, ← s1.length, List.take_length]
  rw [htk] at s4 s5 s6 s7
  have hm : (List.replicate c0.length true).length = c0.length := by simp
  obtain ⟨q1, q2, q3⟩ := gsecs_ok (expCost := expCost) (env := env) (dyn := dyn) (clob := clob) G k0 s1 hfit s2
  have hnb : ∀ x ∈ l', badImm C.code x = false := by
    intro x hx
    obtain ⟨j, hj⟩ := List.mem_iff_getElem?.1 hx
    obtain ⟨p, m, u1, u2, _⟩ := s1.at_ _ _ hj
    rw [u2, badImm_mark]
    exact P.imm p (List.mem_of_getElem? u1)
  have himm : l'.findIdx? (badImm C.code) = none := by
    rw [List.findIdx?_eq_none_iff]; exact hnb
  have hbad : ∀ x ∈ ((C.gsecs expCost env dyn clob k0 { start := b.1, stop := b.2, insts := l' }).map Prod.snd).flatten,
      x.bad = false := by
    rw [q1]
    intro y hy
    obtain ⟨x, hx, rfl⟩ := List.mem_map.1 hy
    exact hnb x hx
  have hH := (holds_iff hm (allTrue _)).2 P.holds
  have hgo : ∀ cx', checkedSections (C.secs (C.gasEnv env dyn) clob k0 { start := b.1, stop := b.2, insts := l' }) cx =
      .done cx' → C.run (C.gasEnv env dyn) clob mem (n + 1) = C.leave k0 { start := b.1, stop := b.2, insts := l' } cx' := by
    intro cx' h
    rw [run_block P.run]
    unfold Compiled.block
    rw [hfind]
    dsimp only
    rw [himm]
    dsimp only
    rw [h]
  have hG := runG_block (mem := mem) (g0 := g0) hrun hfind
  constructor
  · obtain ⟨cx', e1, e2⟩ := gasSections_any _ q3 hH hm (by rw [q1, ginst_t]; exact s5) (by rw [q1, ginst_t]; exact s6)
      (by rw [q1, ginst_t]; exact s4) hbad
    rw [q2] at e1
    rcases e2 ge rde with h | ⟨g', rd', h⟩
    · left; rw [hG, h]
    · right
      refine ⟨g', rd', ?_⟩
      rw [hG, h, hgo _ e1]
  · intro hsf hhead hlive hend g rd hpay
    have hst : ∀ s ∈ C.gsecs expCost env dyn clob k0 { start := b.1, stop := b.2, insts := l' },
        s.1 = headOf (C.se expCost) s.2 := by
      intro s hs
      unfold Compiled.gsecs at hs
      obtain ⟨s', hs', rfl⟩ := List.mem_map.1 hs
      obtain ⟨A, B, hsp⟩ := List.append_of_mem hs'
      dsimp only at hsp ⊢
      obtain ⟨_, _, c3, c4⟩ := split_cut hsp
      have hf := split_flatten C.spec l'
      rw [hsp] at hf
      simp only [List.flatten_append, List.flatten_cons] at hf
      have hll : A.flatten.length + (s'.length + B.flatten.length) = b.2 - b.1 := by
        rw [← hlen, ← s1.length, ← hf]; simp
      have hpos : 0 < s'.length := List.length_pos_iff.2 c3
      obtain ⟨_, t2⟩ := secs_static (env := env) (dyn := dyn) (clob := clob) (k0 := k0) hsf P.blk hhead s1 hsp
        (e := b.2 - b.1) (by omega) (fun x hx => (hlive x (List.mem_of_mem_take hx)).1)
      refine t2 (by omega) ?_ ?_
      · rcases c4 with c4 | c4
        · rcases hend with ⟨y, y1, y2⟩ | h
          · left
            have hl' : ∃ y', l'.getLast? = some y' ∧ y'.2.endsSection C.spec = true := by
              have hlt : l'.length - 1 < l'.length := by
                have := s1.length; omega
              obtain ⟨p, m, u1, u2, _⟩ := s1.at_ _ _ (List.getElem?_eq_getElem hlt)
              rw [List.getLast?_eq_getElem?, ← s1.length, u1] at y1
              have hy := Option.some.inj y1
              refine ⟨_, by rw [List.getLast?_eq_getElem?]; exact List.getElem?_eq_getElem hlt, ?_⟩
              rw [u2, (mark_flags (m := m) (d := p.2)).2.2.2, hy]; exact y2
            obtain ⟨y', v1, v2⟩ := hl'
            refine ⟨y', ?_, v2⟩
            rw [← hf, c4] at v1
            simp only [List.flatten_nil, List.append_nil] at v1
            rw [List.getLast?_append] at v1
            cases hx : s'.getLast? with
            | none => rw [List.getLast?_eq_none_iff] at hx; exact absurd hx c3
            | some z => rw [hx] at v1; simpa using v1
          · exact .inr ⟨c4, h⟩
        · exact .inl c4
      · intro x hx
        have hx' : x ∈ l' := by rw [← hf]; simp [hx]
        obtain ⟨j, hj⟩ := List.mem_iff_getElem?.1 hx'
        obtain ⟨p, m, u1, u2, _⟩ := s1.at_ _ _ hj
        rw [u2, (mark_flags (m := m) (d := p.2)).1, (mark_flags (m := m) (d := p.2)).2.1]
        exact (hlive p (List.mem_of_getElem? u1)).2
    obtain ⟨cx', e1, e2⟩ := gasSections_ok (se := C.se expCost) _ q3 hst hH hm (by rw [q1, ginst_t]; exact s5)
      (by rw [q1, ginst_t]; exact s6) (by rw [q1, ginst_t]; exact s4) hbad ge rde
    rw [q2] at e1
    have hgi : gitems (C.se expCost) (l'.map (C.ginst env dyn clob k0 b.1)) c0 =
        gitems (C.se expCost) ((C.prog.blockInsts b).map (C.ginst env dyn clob k0 b.1)) c0 := by
      have h1 := gitems_marked (se := C.se expCost) (f := C.ginst env dyn clob k0 b.1) (S := c0) s1
        (fun p m => by cases m <;> exact ⟨rfl, rfl, rfl⟩) (b.2 - b.1)
        (fun j hj => by rw [ginst_t, ginst_t]; exact s8 j hj)
      rw [htk, ← hlen, List.take_length] at h1
      exact h1
    rw [q1, hgi, hpay] at e2
    rw [hG, e2, hgo _ e1]

end part

end Verif
