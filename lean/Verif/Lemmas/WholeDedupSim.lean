import Verif.Lemmas.WholeDedupGood
import Verif.Spec.WholeDedup
/-!
# The deduplicated program runs like the program with all blocks
-/

namespace Verif
open Spec
variable {F : Type}

theorem dseWalk_idx {code : Code} {ai : AIState} : ∀ {l : List (Nat × InstData)} {H : Int} {L : List Bool}
    {r : List (Nat × InstData) × List Bool}, dseWalk code ai l H L = some r → r.1.length = l.length
  | [], _, _, _, h => by cases h; rfl
  | (i, d) :: rest, H, L, r, h => by
    rw [dseWalk] at h
    obtain ⟨q, hq, h⟩ := Option.bind_eq_some_iff.1 h
    obtain ⟨z, _, rfl⟩ := Option.map_eq_some_iff.1 h
    show q.1.length + 1 = rest.length + 1
    rw [dseWalk_idx hq]

theorem dseBlock_idx {ins : Bool} {code : Code} {ai : AIState} {l r : List (Nat × InstData)}
    (h : dseBlock ins code ai l = some r) : r.length = l.length := by
  unfold dseBlock at h
  dsimp only at h
  split at h
  · cases h; rfl
  · obtain ⟨q, hq, rfl⟩ := Option.map_eq_some_iff.1 h
    exact dseWalk_idx hq

theorem compileBlock_find {o : WOpts} {code : Code} {p : Prog} {ai : AIState} {out : List CBlock}
    (h : compileBlocks o code p ai p.blocks = some out) {b : Nat × Nat} (hb : b ∈ p.blocks) :
    ∃ x, compileBlock o code p ai b = some x ∧ (out.find? fun x => x.start == b.1) = some x ∧
      x.insts.length = b.2 - b.1 := by
  obtain ⟨x, _, hx⟩ := (compileBlocks_each_mem h).1 b hb
  obtain ⟨l', hl, hf⟩ := compileBlocks_find h (by
    refine List.Pairwise.imp_of_mem ?_ p.blocks_ok.sorted
    intro a c ha _ hac
    have := p.blocks_ok.range a ha
    omega) b hb
  have hx0 := hx
  unfold compileBlock at hx
  rw [hl, Option.bind_some] at hx
  split at hx
  · cases hx
    refine ⟨_, hx0, hf, ?_⟩
    dsimp only
    rw [← (blockInsts_at hb).1]
    split at hl
    · exact dseBlock_idx hl
    · cases hl; rfl
  · cases hx

/-- The deduplicated program is where the program with all blocks is. -/
inductive DRel (s c : DState) : COut F → COut F → Prop
  | running {k i : Nat} {cx : SCx (Option F)} : DRel s c (.running k i cx) (.running k (effective c.redirects i) cx)
  | halted {i : Nat} {cx : SCx (Option F)} :
      DRel s c (.halted i cx) (.halted (shiftIdx s.prog.blocks c.redirects i) cx)
  | invalid {cx : SCx (Option F)} : DRel s c (.invalidJump cx) (.invalidJump cx)
  | stack {f : StackFail} {cx : SCx (Option F)} : DRel s c (.stackError f cx) (.stackError f cx)
  | immediate {i : Nat} {cx : SCx (Option F)} :
      DRel s c (.badImmediate i cx) (.badImmediate (shiftIdx s.prog.blocks c.redirects i) cx)

theorem effective_idem {m : Redirects} (hdir : ∀ k v, m.get k = some v → m.get v = none) (i : Nat) :
    effective m (effective m i) = effective m i := by
  unfold effective
  cases hg : m.get i with
  | none => dsimp only [Option.getD]; rw [hg]
  | some w => dsimp only [Option.getD]; rw [hdir i w hg]

section sim
variable {code : Code} {limit : Nat} {base : List InstData} {ok : Nat → List Word → Prop} {p1 : Prog} {loc : AIState}
  {s c : DState} (S : DSetup code limit base ok p1 loc s c) {o : WOpts} {spec : SpecId} {bs vs : List CBlock}
  {env : Env F} {clob : Nat → Int → Word} {mem : Int → Word}
include S

section block
variable {b b' : Nat × Nat} (hb : b ∈ s.prog.blocks) (hb' : b' ∈ c.prog.blocks)
  (hr : BlockRel code c.redirects s.prog b c.prog b')
include hb hb' hr

theorem DSetup.shift {n : Nat} (hn : n < b.2 - b.1) : shiftIdx s.prog.blocks c.redirects (b.1 + n) = b'.1 + n := by
  rw [shiftIdx_in hb (by omega) (by omega), S.start_eq hb hb' hr]
  omega

theorem DSetup.act (henv : Placeless base env) {n : Nat} (hn : n < b.2 - b.1) (k : Nat) :
    actOf code c.prog env k b'.1 (b'.1 + n) = actOf code (virtProg s c) env k b.1 (b.1 + n) := by
  funext args
  obtain ⟨d, d', h1, h2, h3, _, _, _, _, h4, _⟩ := S.pair hb hb' hr hn
  obtain ⟨e, e1, e2⟩ := S.sound.ev.back h1
  obtain ⟨e', e1', e2'⟩ := S.evc.back h2
  have hop : d'.opcode = d.opcode := h3.opc.symm
  have he : env (k + n) (b'.1 + n) args = env (k + n) (b.1 + n) args :=
    henv _ _ _ e e' args e1 e1' (by rw [← e2'.op, ← e2.op]; exact hop) (by rw [← e2'.io, ← e2.io]; exact h4)
  have hown : ownLogic code (b'.1 + n) d' args = ownLogic code (b.1 + n) d args := by
    unfold ownLogic
    rw [hop]
    by_cases hp : 0x5f ≤ d.opcode.toNat ∧ d.opcode.toNat ≤ 0x7f
    · rw [if_pos hp, if_pos hp, show code.imm (b.1 + n) = code.imm (b'.1 + n) from h3.imm (.inl hp)]
    · rw [if_neg hp, if_neg hp]
      cases args with
      | cons _ _ => rfl
      | nil =>
        dsimp only
        by_cases hpc : d.opcode = op.PC
        · rw [show d.data = d'.data from h3.pc hpc]
        · rw [show (d.opcode == op.PC) = false by simpa using hpc]
          simp
  unfold actOf
  rw [h2, show (virtProg s c).insts[b.1 + n]? = some d from h1, Option.bind_some, Option.bind_some, hown,
    show b'.1 + n - b'.1 = n by omega, show b.1 + n - b.1 = n by omega, he]

theorem DSetup.secs_eq (henv : Placeless base env) {x x' : CBlock} (hx : x.start = b.1) (hx' : x'.start = b'.1)
    (hm : Matched (CRel code (virtAi s c) c.ai b.1 b'.1 (b.2 - b.1)) x.insts x'.insts) (k : Nat) :
    Compiled.secs { code, prog := c.prog, ai := c.ai, spec, blocks := bs } env clob k x' =
      Compiled.secs { code, prog := virtProg s c, ai := virtAi s c, spec, blocks := vs } env clob k x := by
  unfold Compiled.secs
  dsimp only
  refine matched_map (R := Matched (CRel code (virtAi s c) c.ai b.1 b'.1 (b.2 - b.1))) (fun l l' hl => ?_)
    (matched_split spec hm)
  refine matched_map (R := CRel code (virtAi s c) c.ai b.1 b'.1 (b.2 - b.1)) (fun y y' hy => ?_) hl
  unfold toT
  obtain ⟨n, hn, hy1, hy2⟩ := hy.off
  rw [hy.io, hy.lowerOf, hy.constOperand, hy.constOutput, hy.noop, hy1, hy2, hx, hx', S.act hb hb' hr henv hn k]
  unfold clobAt
  rw [show b'.1 + n - b'.1 = n by omega, show b.1 + n - b.1 = n by omega]

theorem DSetup.leave_sim {x x' : CBlock} (hx : x.start = b.1) (hx2 : x.stop = b.2) (hx' : x'.start = b'.1)
    (hx2' : x'.stop = b'.2) (k : Nat) (cx : SCx (Option F))
    (hne : Compiled.leave { code, prog := virtProg s c, ai := virtAi s c, spec, blocks := vs } k x cx ≠ .panic) :
    DRel s c (Compiled.leave { code, prog := virtProg s c, ai := virtAi s c, spec, blocks := vs } k x cx)
      (DCompiled.leave { code, prog := c.prog, ai := c.ai, spec, blocks := bs, redirects := c.redirects } k x' cx) := by
  have hlen := S.len_eq hb hb' hr
  have hrange := (s.prog.blocks_ok.range b hb).2.1
  obtain ⟨d, d', h1, h2, h3, _, _, h5, h6, _⟩ := S.pair hb hb' hr (n := b.2 - b.1 - 1) (by omega)
  have hsh := S.shift hb hb' hr (n := b.2 - b.1 - 1) (by omega)
  rw [show b.1 + (b.2 - b.1 - 1) = b.2 - 1 by omega] at h1 hsh
  rw [show b'.1 + (b.2 - b.1 - 1) = b'.2 - 1 by omega] at h2 hsh
  obtain ⟨y, y', q1, q2, T, hfall⟩ := hr.term
  rw [h1] at q1; cases q1
  rw [h2] at q2; cases q2
  have hi := S.after.steady.direct
  have hjump : d'.isJump = d.isJump := by unfold InstData.isJump; rw [T.op]
  have hft : d.canFallThrough = true → effective c.redirects (effective c.redirects b'.2) = effective c.redirects b.2 := by
    intro h
    rw [hfall h, effective_idem hi]
  revert hne
  unfold Compiled.leave DCompiled.leave DCompiled.nextEntry
  dsimp only
  rw [hx2, hx2', hx, hx', show (virtProg s c).insts[b.2 - 1]? = some d from h1, h2]
  dsimp only
  rw [h5, h6, hjump, hlen]
  by_cases hoff : (d.flags.disabled || d.flags.unknown) = true
  · rw [if_pos hoff, if_pos hoff, ← hsh]
    exact fun _ => .halted
  rw [if_neg hoff, if_neg hoff]
  by_cases hj : d.isJump = true
  · rw [if_pos hj, if_pos hj]
    obtain ⟨j1, j2, j3, j4⟩ := T.jump hj
    cases cx.trace.head? with
    | none => exact fun h => absurd rfl h
    | some ev =>
      cases ev with
      | branched t cnd =>
        dsimp only
        rw [T.op, j4]
        have hmul : (virtProg s c).multi.lookup (b.2 - 1) = c.prog.multi.lookup (b'.2 - 1) := by
          show (virtMulti s c).lookup _ = _
          rw [virtMulti_lookup (List.getElem?_eq_some_iff.1 h1).1, hsh]
        by_cases hji : d.opcode = op.JUMPI ∧ ¬ d.hasConstJumpiCondition = true
        · by_cases hz : cnd.getD 0 = 0#256
          · have hff : d.canFallThrough = true := by
              obtain ⟨d1, d2⟩ := S.steady.jumps _ _ h1 hj
              unfold InstData.canFallThrough InstData.isDiverging
              have hc : d.hasConstJumpiCondition = false := by simpa using hji.2
              rw [d1, d2, hji.1, hc]
              rfl
            rw [if_pos ⟨hji.1, hji.2, hz⟩, hft hff]
            have : (virtProg s c).compiledNext code (b.2 - 1) d [t.getD 0, cnd.getD 0] = some b.2 := by
              unfold Prog.compiledNext
              dsimp only [List.headD, List.tail]
              rw [if_pos hji, if_pos hz, show b.2 - 1 + 1 = b.2 by omega]
            rw [this]
            exact fun _ => .running
          · rw [if_neg (fun h => hz h.2.2)]
            unfold Prog.compiledNext
            dsimp only [List.headD, List.tail]
            rw [T.op, j1, j2, j3, j4, hmul, if_pos hji, if_pos hji, if_neg hz, if_neg hz]
            cases hinv : d.flags.invalidJump with
            | true => exact fun _ => .invalid
            | false =>
              simp only [Bool.false_eq_true, if_false]
              cases hmu : d.flags.multiJump with
              | true =>
                simp only [if_true]
                cases (code.target (t.getD 0)).filter fun t => ((c.prog.multi.lookup (b'.2 - 1)).getD []).contains t with
                | none => exact fun _ => .invalid
                | some t => exact fun _ => .running
              | false =>
                simp only [Bool.false_eq_true, if_false]
                cases hst : d.flags.staticJump with
                | true =>
                  simp only [if_true]
                  have hsg : Single d = true := Single.iff.2
                    ⟨by unfold InstData.isStaticJump; rw [hj, hst]; rfl, hinv, hmu⟩
                  have := (ends_effective hi).1 ((T.single hsg _).1 ((ends_effective hi).2 rfl))
                  unfold InstData.staticJumpTarget
                  rw [← this]
                  exact fun _ => .running
                | false =>
                  simp only [Bool.false_eq_true, if_false]
                  cases code.target (t.getD 0) with
                  | none => exact fun _ => .invalid
                  | some t => exact fun _ => .running
        · rw [if_neg (fun h => hji ⟨h.1, h.2.1⟩)]
          unfold Prog.compiledNext
          dsimp only [List.headD, List.tail]
          rw [T.op, j1, j2, j3, j4, hmul, if_neg hji, if_neg hji]
          cases hinv : d.flags.invalidJump with
          | true => exact fun _ => .invalid
          | false =>
            simp only [Bool.false_eq_true, if_false]
            cases hmu : d.flags.multiJump with
            | true =>
              simp only [if_true]
              cases (code.target (t.getD 0)).filter fun t => ((c.prog.multi.lookup (b'.2 - 1)).getD []).contains t with
              | none => exact fun _ => .invalid
              | some t => exact fun _ => .running
            | false =>
              simp only [Bool.false_eq_true, if_false]
              cases hst : d.flags.staticJump with
              | true =>
                simp only [if_true]
                have hsg : Single d = true := Single.iff.2
                  ⟨by unfold InstData.isStaticJump; rw [hj, hst]; rfl, hinv, hmu⟩
                have := (ends_effective hi).1 ((T.single hsg _).1 ((ends_effective hi).2 rfl))
                unfold InstData.staticJumpTarget
                rw [← this]
                exact fun _ => .running
              | false =>
                simp only [Bool.false_eq_true, if_false]
                cases code.target (t.getD 0) with
                | none => exact fun _ => .invalid
                | some t => exact fun _ => .running
      | _ => exact fun h => absurd rfl h
  · rw [if_neg hj, if_neg hj]
    have hj0 : d.isJump = false := by simpa using hj
    have hjj := hj0
    unfold InstData.isJump at hjj
    rw [Bool.or_eq_false_iff] at hjj
    have hdiv : d'.isDiverging = d.isDiverging := by
      unfold InstData.isDiverging
      rw [T.op, h5, h6, hjj.1]
      rfl
    rw [hdiv]
    by_cases hv : d.isDiverging = true
    · rw [if_pos hv, if_pos hv, ← hsh]
      exact fun _ => .halted
    · rw [if_neg hv, if_neg hv, hft (by
        unfold InstData.canFallThrough InstData.hasConstJumpiCondition
        rw [hjj.2, show d.isDiverging = false by simpa using hv]
        have : (d.opcode != op.JUMP) = true := by simpa using hjj.1
        rw [this]; rfl)]
      exact fun _ => .running

end block

variable (hbs : compileBlocks o code c.prog c.ai c.prog.blocks = some bs)
  (hvs : compileBlocks o code (virtProg s c) (virtAi s c) (virtProg s c).blocks = some vs)
include hbs hvs

theorem DSetup.block_sim (henv : Placeless base env) (k i : Nat) (cx : SCx (Option F))
    (hne : Compiled.block { code, prog := virtProg s c, ai := virtAi s c, spec, blocks := vs } env clob k i cx ≠ .panic) :
    DRel s c (Compiled.block { code, prog := virtProg s c, ai := virtAi s c, spec, blocks := vs } env clob k i cx)
      (DCompiled.block { code, prog := c.prog, ai := c.ai, spec, blocks := bs, redirects := c.redirects } env clob k
        (effective c.redirects i) cx) := by
  cases hf : vs.find? fun b => b.start == i with
  | none =>
    exfalso
    apply hne
    unfold Compiled.block
    dsimp only
    rw [hf]
  | some x =>
    have hxi := List.find?_some hf
    simp only [beq_iff_eq] at hxi
    have hmem := compileBlocks_mem hvs x (List.mem_of_find?_eq_some hf)
    have hb : (i, x.stop) ∈ s.prog.blocks := by rw [← hxi]; exact hmem
    obtain ⟨b', hb', hr⟩ := S.block _ hb
    obtain ⟨z, hz1, hz2, hzl⟩ := compileBlock_find hvs (p := virtProg s c) hb
    dsimp only at hz2
    rw [hf] at hz2
    cases hz2
    obtain ⟨x', hx1, hx2, _⟩ := compileBlock_find hbs hb'
    obtain ⟨w, hw, w1, w2, w3, w4, w5⟩ := matched_compile (S.alike hb hb' hr) hx1
    rw [hz1] at hw
    cases hw
    have hst := S.start_eq hb hb' hr
    dsimp only at hst
    have hidx : x'.insts.findIdx? (badImm code) = x.insts.findIdx? (badImm code) :=
      matched_findIdx (fun _ _ h => h.badImm) w5
    have hsecs := S.secs_eq (spec := spec) (bs := bs) (vs := vs) (clob := clob) hb hb' hr henv w1 w3 w5 k
    revert hne
    unfold Compiled.block DCompiled.block
    dsimp only
    rw [hf, hst, hx2]
    dsimp only
    rw [hidx]
    cases hbad : x.insts.findIdx? (badImm code) with
    | some n =>
      dsimp only
      rw [hsecs]
      have hn : n < x.stop - i := by
        rw [List.findIdx?_eq_some_iff_getElem] at hbad
        obtain ⟨hn, _⟩ := hbad
        dsimp only at hzl
        omega
      cases checkedPrefix n (Compiled.secs { code, prog := virtProg s c, ai := virtAi s c, spec, blocks := vs } env clob k x) cx with
      | done cx =>
        dsimp only
        rw [w1, w3, ← S.shift hb hb' hr hn]
        exact fun _ => .immediate
      | fail f cx => exact fun _ => .stack
      | panic => exact fun h => absurd rfl h
    | none =>
      dsimp only
      rw [hsecs]
      cases checkedSections (Compiled.secs { code, prog := virtProg s c, ai := virtAi s c, spec, blocks := vs } env clob k x) cx with
      | done cx => exact fun h => S.leave_sim hb hb' hr w1 w2 w3 w4 k cx h
      | fail f cx => exact fun _ => .stack
      | panic => exact fun h => absurd rfl h

theorem DSetup.run_sim (henv : Placeless base env) (n : Nat)
    (hne : Compiled.run { code, prog := virtProg s c, ai := virtAi s c, spec, blocks := vs } env clob mem n ≠ .panic) :
    DRel s c (Compiled.run { code, prog := virtProg s c, ai := virtAi s c, spec, blocks := vs } env clob mem n)
      (DCompiled.run { code, prog := c.prog, ai := c.ai, spec, blocks := bs, redirects := c.redirects } env clob mem n) := by
  induction n with
  | zero =>
    have h0 : effective c.redirects 0 = 0 := by
      unfold effective
      cases hg : c.redirects.get 0 with
      | none => rfl
      | some v => have := S.after.steady.earlier 0 v hg; omega
    have := DRel.running (s := s) (c := c) (k := 0) (i := 0) (cx := ({ mem := mem } : SCx (Option F)))
    rw [h0] at this
    exact this
  | succ n ih =>
    unfold Compiled.run DCompiled.run
    unfold Compiled.run at hne
    revert ih hne
    generalize Compiled.run { code, prog := virtProg s c, ai := virtAi s c, spec, blocks := vs } env clob mem n = u
    generalize DCompiled.run { code, prog := c.prog, ai := c.ai, spec, blocks := bs, redirects := c.redirects } env clob
      mem n = v
    intro ih hne
    cases u with
    | running k i cx =>
      cases ih (by simp)
      exact S.block_sim hbs hvs henv k i cx hne
    | halted i cx => cases ih (by simp); exact .halted
    | invalidJump cx => cases ih (by simp); exact .invalid
    | stackError f cx => cases ih (by simp); exact .stack
    | badImmediate i cx => cases ih (by simp); exact .immediate
    | panic => exact absurd rfl hne

end sim

end Verif
