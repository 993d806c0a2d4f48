import Verif.Model.WholeDedupGas
import Verif.Spec.WholeDedupGas
import Verif.Lemmas.WholeDedupGasSec
import Verif.Lemmas.WholeDedupOf
import Verif.Lemmas.Access
/-!
# The deduplicated program pays like the program with all blocks
-/

namespace Verif
open Spec
variable {F : Type}

/-- An instruction of a block at another place. -/
def GInst.at_ (f : Nat → Nat) (x : GInst F) : GInst F := { x with idx := f x.idx }

/-- An outcome at another place. -/
def GChk.at_ (f : Nat → Nat) : GChk F → GChk F
  | .bad i cx => .bad (f i) cx
  | o => o

theorem gasSteps_at (f : Nat → Nat) : ∀ (xs : List (GInst F)) (cx : SCx (Option (Paid F))) (g : Nat) (rd : List (Nat × Nat)),
    gasSteps (xs.map (·.at_ f)) cx g rd = (gasSteps xs cx g rd).at_ f
  | [], _, _, _ => rfl
  | x :: xs, cx, g, rd => by
    rw [List.map_cons, gasSteps, gasSteps]
    show (if x.bad = true then GChk.bad (f x.idx) cx else _) = _
    cases x.bad with
    | true => rfl
    | false =>
      simp only [Bool.false_eq_true, if_false]
      show (match SCx.step x.t cx with
        | none => GChk.panic
        | some cx' => _) = _
      cases SCx.step x.t cx with
      | none => rfl
      | some cx' =>
        dsimp only
        cases chargeGas g (spent cx'.trace - spent cx.trace) with
        | none => rfl
        | some g' =>
          dsimp only
          have ih := gasSteps_at f xs
          cases xs with
          | nil => rfl
          | cons y ys =>
            simp only [List.map_cons, List.isEmpty_cons, Bool.false_eq_true, if_false]
            simp only [List.map_cons] at ih
            exact ih _ _ _

theorem gasSections_at (f : Nat → Nat) : ∀ (ss : List (Nat × List (GInst F))) (cx : SCx (Option (Paid F))) (g : Nat)
    (rd : List (Nat × Nat)),
    gasSections (ss.map fun s => (s.1, s.2.map (·.at_ f))) cx g rd = (gasSections ss cx g rd).at_ f
  | [], _, _, _ => rfl
  | (st, xs) :: ss, cx, g, rd => by
    have ht : (xs.map (·.at_ f)).map (·.t) = xs.map (·.t) := by rw [List.map_map]; rfl
    rw [List.map_cons, gasSections_cons, gasSections_cons]
    dsimp only
    rw [ht]
    cases chargeGas g st with
    | none => rfl
    | some g =>
      dsimp only
      cases headCheck (xs.map (·.t)) cx with
      | some e => rfl
      | none =>
        dsimp only
        rw [gasSteps_at]
        cases gasSteps xs (SCx.head (xs.map (·.t)) cx) g rd with
        | done cx g rd => exact gasSections_at f ss cx g rd
        | _ => rfl

/-- The deduplicated program is where the program with all blocks is, with the same gas. -/
inductive GRel (s c : DState) : GOut F → GOut F → Prop
  | running {k i : Nat} {cx : SCx (Option (Paid F))} {g : Nat} {rd : List (Nat × Nat)} :
      GRel s c (.running k i cx g rd) (.running k (effective c.redirects i) cx g rd)
  | halted {i : Nat} {cx : SCx (Option (Paid F))} {g : Nat} {rd : List (Nat × Nat)} :
      GRel s c (.halted i cx g rd) (.halted (shiftIdx s.prog.blocks c.redirects i) cx g rd)
  | invalid : GRel s c .invalidJump .invalidJump
  | stack {f : StackFail} : GRel s c (.stackError f) (.stackError f)
  | immediate {i : Nat} : GRel s c (.badImmediate i) (.badImmediate (shiftIdx s.prog.blocks c.redirects i))
  | outOfGas : GRel s c .outOfGas .outOfGas

theorem DRel.withGas {s c : DState} {u v : COut (Paid F)} (h : DRel s c u v) (g : Nat) (rd : List (Nat × Nat)) :
    GRel s c (u.withGas g rd) (v.withGas g rd) := by
  cases h
  · exact .running
  · exact .halted
  · exact .invalid
  · exact .stack
  · exact .immediate

theorem matched_weaken {α : Type} {R Q : α → α → Prop} (hq : ∀ a b, R a b → Q a b) {l l' : List α} (h : Matched R l l') :
    Matched Q l l' := by
  induction h with
  | nil => exact .nil
  | cons h1 _ ih => exact .cons (hq _ _ h1) ih

theorem matched_mem {α : Type} {R : α → α → Prop} {l l' : List α} (h : Matched R l l') :
    Matched (fun a b => R a b ∧ a ∈ l ∧ b ∈ l') l l' := by
  induction h with
  | nil => exact .nil
  | cons h1 _ ih =>
    exact .cons ⟨h1, by simp, by simp⟩ (matched_weaken
      (fun _ _ h => ⟨h.1, List.mem_cons_of_mem _ h.2.1, List.mem_cons_of_mem _ h.2.2⟩) ih)

section sim
variable {code : Code} {limit : Nat} {base : List InstData} {ok : Nat → List Word → Prop} {p1 : Prog} {loc : AIState}
  {s c : DState} (S : DSetup code limit base ok p1 loc s c) {o : WOpts} {spec : SpecId} {bs vs : List CBlock}
  {env : Env F} {dyn : Nat → Nat → List Word → Nat} {expCost : Word → Nat} {clob : Nat → Int → Word} {mem : Int → Word}
  (hgas : ∀ (i j : Nat) d e, base[i]? = some d → base[j]? = some e → e.opcode = d.opcode → e.baseGas = d.baseGas)
  (henv : Placeless base env) (hdyn : PlacelessCosts base dyn)
include S

section block
variable {b b' : Nat × Nat} (hb : b ∈ s.prog.blocks) (hb' : b' ∈ c.prog.blocks)
  (hr : BlockRel code c.redirects s.prog b c.prog b')
include hb hb' hr

/-- `DSetup.act` for two worlds that agree. -/
theorem DSetup.act_of {E : Type} {e1 e2 : Env E} {n k : Nat} (hn : n < b.2 - b.1)
    (he : ∀ args, e2 (k + n) (b'.1 + n) args = e1 (k + n) (b.1 + n) args) :
    actOf code c.prog e2 k b'.1 (b'.1 + n) = actOf code (virtProg s c) e1 k b.1 (b.1 + n) := by
  funext args
  obtain ⟨d, d', h1, h2, h3, _, _, _, _, h4, _⟩ := S.pair hb hb' hr hn
  have hop : d'.opcode = d.opcode := h3.opc.symm
  have hown : ownLogic code (b'.1 + n) d' args = ownLogic code (b.1 + n) d args := by
    unfold ownLogic
    rw [hop]
    by_cases hp : 0x5f ≤ d.opcode.toNat ∧ d.opcode.toNat ≤ 0x7f
    · rw [if_pos hp, if_pos hp, show code.imm (b.1 + n) = code.imm (b'.1 + n) from h3.imm (.inl hp)]
    · rw [if_neg hp, if_neg hp]
      cases args with
      | cons _ _ => rfl
      | nil =>
        dsimp only
        by_cases hpc : d.opcode = op.PC
        · rw [show d.data = d'.data from h3.pc hpc]
        · rw [show (d.opcode == op.PC) = false by simpa using hpc]
          simp
  unfold actOf
  rw [h2, show (virtProg s c).insts[b.1 + n]? = some d from h1, Option.bind_some, Option.bind_some, hown,
    show b'.1 + n - b'.1 = n by omega, show b.1 + n - b.1 = n by omega, he]

include hgas henv hdyn

theorem DSetup.gsecs_eq {x x' : CBlock} (hx : x.start = b.1) (hx' : x'.start = b'.1)
    (hm : Matched (CRel code (virtAi s c) c.ai b.1 b'.1 (b.2 - b.1)) x.insts x'.insts)
    (hmk : Marked ((virtProg s c).blockInsts b) x.insts) (hmk' : Marked (c.prog.blockInsts b') x'.insts)
    (hsv : SumsFit { code, prog := virtProg s c, ai := virtAi s c, spec, blocks := vs } expCost)
    (hsc : SumsFit { code, prog := c.prog, ai := c.ai, spec, blocks := bs } expCost) (k : Nat) :
    Compiled.gsecs { code, prog := c.prog, ai := c.ai, spec, blocks := bs } expCost env dyn clob k x' =
      (Compiled.gsecs { code, prog := virtProg s c, ai := virtAi s c, spec, blocks := vs } expCost env dyn clob k x).map
        fun q => (q.1, q.2.map (·.at_ (shiftIdx s.prog.blocks c.redirects))) := by
  have hcost : ∀ y y', CRel code (virtAi s c) c.ai b.1 b'.1 (b.2 - b.1) y y' →
      Compiled.headCost { code, prog := c.prog, ai := c.ai, spec, blocks := bs } expCost y'.1 =
        Compiled.headCost { code, prog := virtProg s c, ai := virtAi s c, spec, blocks := vs } expCost y.1 := by
    intro y y' hy
    obtain ⟨n, hn, hy1, hy2⟩ := hy.off
    obtain ⟨d, d', h1, h2, h3, _⟩ := S.pair hb hb' hr hn
    obtain ⟨e, e1, e2⟩ := S.sound.ev.back h1
    obtain ⟨e', e1', e2'⟩ := S.evc.back h2
    have hop : d'.opcode = d.opcode := h3.opc.symm
    have hg : d'.baseGas = d.baseGas := by
      rw [e2'.gas, e2.gas]
      exact hgas _ _ _ _ e1 e1' (by rw [← e2'.op, ← e2.op]; exact hop)
    have q1 : c.prog.insts[y'.1]? = some d' := by rw [hy2]; exact h2
    have q2 : (virtProg s c).insts[y.1]? = some d := by rw [hy1]; exact h1
    unfold Compiled.headCost Compiled.extra
    dsimp only
    rw [q1, q2, hy.constOperand, hy.constOutput]
    simp only [Option.map_some, Option.getD_some, Option.bind_some]
    rw [hg, hop]
  unfold Compiled.gsecs
  dsimp only
  rw [List.map_map]
  refine matched_map (fun l l' hl => ?_) (matched_mem (matched_split spec hm))
  obtain ⟨hl, hl1, hl2⟩ := hl
  have hsec : Compiled.sectionGas { code, prog := c.prog, ai := c.ai, spec, blocks := bs } expCost l' =
      Compiled.sectionGas { code, prog := virtProg s c, ai := virtAi s c, spec, blocks := vs } expCost l := by
    rw [Anch.secs_full (C := { code, prog := c.prog, ai := c.ai, spec, blocks := bs }) S.after.steady.anch hsc hb' hmk' hl2,
      Anch.secs_full (C := { code, prog := virtProg s c, ai := virtAi s c, spec, blocks := vs }) S.steady.anch hsv hb hmk hl1]
    have hsum := matched_map hcost hl
    cases hl with
    | nil => rfl
    | @cons y y' _ _ h1 _ =>
      obtain ⟨i, d⟩ := y
      obtain ⟨i', d'⟩ := y'
      unfold Compiled.headSum
      dsimp only
      rw [hsum, show d'.flags.disabled = d.flags.disabled from h1.dis, show d'.flags.unknown = d.flags.unknown from h1.unk]
  show (_, _) = (_, _)
  dsimp only
  rw [hsec, List.map_map]
  congr 1
  refine matched_map (R := CRel code (virtAi s c) c.ai b.1 b'.1 (b.2 - b.1)) (fun y y' hy => ?_) hl
  obtain ⟨n, hn, hy1, hy2⟩ := hy.off
  obtain ⟨d, d', h1, h2, h3, _, _, _, _, h4, _⟩ := S.pair hb hb' hr hn
  obtain ⟨e, e1, e2⟩ := S.sound.ev.back h1
  obtain ⟨e', e1', e2'⟩ := S.evc.back h2
  have hop : d'.opcode = d.opcode := h3.opc.symm
  have hopb : e'.opcode = e.opcode := by rw [← e2'.op, ← e2.op]; exact hop
  have hiob : e'.stackIo = e.stackIo := by rw [← e2'.io, ← e2.io]; exact h4
  have hgenv : ∀ args,
      Compiled.gasEnv { code, prog := c.prog, ai := c.ai, spec, blocks := bs } env dyn (k + n) (b'.1 + n) args =
      Compiled.gasEnv { code, prog := virtProg s c, ai := virtAi s c, spec, blocks := vs } env dyn (k + n) (b.1 + n) args := by
    intro args
    have hch : Compiled.charge { code, prog := c.prog, ai := c.ai, spec, blocks := bs } dyn (k + n) (b'.1 + n) args =
        Compiled.charge { code, prog := virtProg s c, ai := virtAi s c, spec, blocks := vs } dyn (k + n) (b.1 + n) args := by
      unfold Compiled.charge
      dsimp only
      rw [h2, show (virtProg s c).insts[b.1 + n]? = some d from h1]
      dsimp only
      have hp : expPaid c.ai (b'.1 + n) = expPaid (virtAi s c) (b.1 + n) := by
        unfold expPaid
        rw [← hy1, ← hy2, hy.constOperand, hy.constOutput]
      rw [hop, hp, hdyn _ _ _ e e' args e1 e1' hopb hiob]
    unfold Compiled.gasEnv
    rw [hch, henv _ _ _ e e' args e1 e1' hopb hiob]
  have hact := S.act_of hb hb' hr hn hgenv
  show Compiled.ginst _ env dyn clob k x'.start y' = GInst.at_ _ (Compiled.ginst _ env dyn clob k x.start y)
  unfold Compiled.ginst GInst.at_ toT
  dsimp only
  have hreads : readsCounter spec y'.2 = readsCounter spec y.2 := by unfold readsCounter; rw [hy.op]
  rw [hy.io, hy.lowerOf, hy.constOperand, hy.constOutput, hy.noop, hy.badImm, hreads, hx, hx', hy1, hy2, hact,
    S.shift hb hb' hr hn]
  unfold clobAt
  rw [show b'.1 + n - b'.1 = n by omega, show b.1 + n - b.1 = n by omega]

end block

variable (hbs : compileBlocks o code c.prog c.ai c.prog.blocks = some bs)
  (hvs : compileBlocks o code (virtProg s c) (virtAi s c) (virtProg s c).blocks = some vs)
  (hsv : SumsFit { code, prog := virtProg s c, ai := virtAi s c, spec, blocks := vs } expCost)
  (hsc : SumsFit { code, prog := c.prog, ai := c.ai, spec, blocks := bs } expCost)
include hgas henv hdyn hbs hvs hsv hsc

theorem DSetup.gblock_sim (k i : Nat) (cx : SCx (Option (Paid F))) (g : Nat) (rd : List (Nat × Nat))
    (hne : Compiled.gasBlock { code, prog := virtProg s c, ai := virtAi s c, spec, blocks := vs } expCost env dyn clob k i cx
      g rd ≠ .panic) :
    GRel s c (Compiled.gasBlock { code, prog := virtProg s c, ai := virtAi s c, spec, blocks := vs } expCost env dyn clob k i
        cx g rd)
      (DCompiled.gasBlock { code, prog := c.prog, ai := c.ai, spec, blocks := bs, redirects := c.redirects } expCost env dyn
        clob k (effective c.redirects i) cx g rd) := by
  cases hf : vs.find? fun b => b.start == i with
  | none =>
    exfalso
    apply hne
    unfold Compiled.gasBlock
    dsimp only
    rw [hf]
  | some x =>
    have hxi := List.find?_some hf
    simp only [beq_iff_eq] at hxi
    have hmem := compileBlocks_mem hvs x (List.mem_of_find?_eq_some hf)
    have hb : (i, x.stop) ∈ s.prog.blocks := by rw [← hxi]; exact hmem
    obtain ⟨b', hb', hr⟩ := S.block _ hb
    obtain ⟨z, hz1, hz2, hzl⟩ := compileBlock_find hvs (p := virtProg s c) hb
    dsimp only at hz2
    rw [hf] at hz2
    cases hz2
    obtain ⟨x', hx1, hx2, _⟩ := compileBlock_find hbs hb'
    obtain ⟨w, hw, w1, w2, w3, w4, w5⟩ := matched_compile (S.alike hb hb' hr) hx1
    rw [hz1] at hw
    cases hw
    have hst := S.start_eq hb hb' hr
    dsimp only at hst
    have hmk : Marked ((virtProg s c).blockInsts (i, x.stop)) x.insts := by
      obtain ⟨blk, _, q1, q2, q3⟩ := compileBlocks_from hvs x (List.mem_of_find?_eq_some hf)
      have : blk = (i, x.stop) := Prod.ext (by rw [← q1, hxi]) (by rw [← q2])
      rw [this] at q3
      refine dse_marks (fun q hq => ?_) q3
      obtain ⟨e, e1, e2⟩ := S.sound.ev.back (mem_slice hq).1
      exact (e2.wf (S.inst _ e e1)).noop
    have hmk' : Marked (c.prog.blockInsts b') x'.insts := by
      obtain ⟨blk, _, q1, q2, q3⟩ := compileBlocks_from hbs x' (List.mem_of_find?_eq_some hx2)
      have : blk = b' := Prod.ext (by rw [← q1, w3]) (by rw [← q2, w4])
      rw [this] at q3
      refine dse_marks (fun q hq => ?_) q3
      obtain ⟨e, e1, e2⟩ := S.evc.back (mem_slice hq).1
      exact (e2.wf (S.inst _ e e1)).noop
    have hsecs := S.gsecs_eq (spec := spec) (bs := bs) (vs := vs) (clob := clob) (expCost := expCost) hgas henv hdyn hb hb' hr
      w1 w3 w5 hmk hmk' hsv hsc k
    revert hne
    unfold Compiled.gasBlock DCompiled.gasBlock
    dsimp only
    rw [hf, hst, hx2]
    dsimp only
    rw [hsecs, gasSections_at]
    cases gasSections (Compiled.gsecs { code, prog := virtProg s c, ai := virtAi s c, spec, blocks := vs } expCost env dyn
        clob k x) cx g rd with
    | done cx g rd =>
      intro h
      refine (S.leave_sim hb hb' hr w1 w2 w3 w4 k cx ?_).withGas g rd
      intro h0
      apply h
      dsimp only
      rw [h0]; rfl
    | fail f cx => exact fun _ => .stack
    | bad i cx => exact fun _ => .immediate
    | outOfGas => exact fun _ => .outOfGas
    | panic => exact fun h => absurd rfl h

theorem DSetup.grun_sim (g0 n : Nat)
    (hne : Compiled.runG { code, prog := virtProg s c, ai := virtAi s c, spec, blocks := vs } expCost env dyn clob mem g0 n ≠
      .panic) :
    GRel s c (Compiled.runG { code, prog := virtProg s c, ai := virtAi s c, spec, blocks := vs } expCost env dyn clob mem g0 n)
      (DCompiled.runG { code, prog := c.prog, ai := c.ai, spec, blocks := bs, redirects := c.redirects } expCost env dyn clob
        mem g0 n) := by
  induction n with
  | zero =>
    have h0 : effective c.redirects 0 = 0 := by
      unfold effective
      cases hg : c.redirects.get 0 with
      | none => rfl
      | some v => have := S.after.steady.earlier 0 v hg; omega
    have := GRel.running (s := s) (c := c) (k := 0) (i := 0) (cx := ({ mem := mem } : SCx (Option (Paid F)))) (g := g0)
      (rd := [])
    rw [h0] at this
    exact this
  | succ n ih =>
    unfold Compiled.runG DCompiled.runG
    unfold Compiled.runG at hne
    revert ih hne
    generalize Compiled.runG { code, prog := virtProg s c, ai := virtAi s c, spec, blocks := vs } expCost env dyn clob mem g0
      n = u
    generalize DCompiled.runG { code, prog := c.prog, ai := c.ai, spec, blocks := bs, redirects := c.redirects } expCost env
      dyn clob mem g0 n = v
    intro ih hne
    cases u with
    | running k i cx g rd =>
      cases ih (by simp)
      exact S.gblock_sim hgas henv hdyn hbs hvs hsv hsc k i cx g rd hne
    | halted i cx g rd => cases ih (by simp); exact .halted
    | invalidJump => cases ih (by simp); exact .invalid
    | stackError f => cases ih (by simp); exact .stack
    | badImmediate i => cases ih (by simp); exact .immediate
    | outOfGas => cases ih (by simp); exact .outOfGas
    | panic => exact absurd rfl hne

end sim

theorem stop_free {g : UInt8 → BitVec 16} {spec : SpecId} (h0 : g op.STOP = 0) : (makeMap g spec op.STOP).baseGas = 0 := by
  rw [Verif.Access.makeMap_baseGas]
  have h1 : opTable op.STOP = some ⟨0, 0, 0⟩ := by rfl
  unfold makeMapBase
  rw [h1]
  dsimp only
  rw [h0]
  decide

/-- The static cost of an instruction depends on its opcode only, if STOP is free. -/
theorem parse_gas {g : UInt8 → BitVec 16} {spec : SpecId} {bytes : List UInt8} (h0 : g op.STOP = 0) {i j : Nat}
    {d e : InstData} (hd : (parse g spec bytes).toProg.insts[i]? = some d)
    (he : (parse g spec bytes).toProg.insts[j]? = some e) (ho : e.opcode = d.opcode) : e.baseGas = d.baseGas := by
  have key : ∀ (i : Nat) d, (parse g spec bytes).toProg.insts[i]? = some d →
      d.baseGas = if opActive (makeMap g spec d.opcode) then (makeMap g spec d.opcode).baseGas.toNat else 0 := by
    intro i d hd
    obtain ⟨pc, hpc⟩ := toProg_get hd
    rcases parse_mem g spec bytes (List.mem_of_getElem? hpc) with hm | hm
    · obtain ⟨_, _, _, it0, _, _, h⟩ := parseLoop_mem _ bytes bytes 0 [] (Or.inr (by simp)) _ hm
      dsimp only at h
      exact congrArg (·.baseGas) h
    · rw [Prod.mk.injEq] at hm
      rw [hm.2]
      have hz : (makeMap g spec op.STOP).baseGas = 0 := stop_free h0
      show 0 = if opActive (makeMap g spec op.STOP) then (makeMap g spec op.STOP).baseGas.toNat else 0
      rw [hz]
      split <;> rfl
  rw [key i d hd, key j e he, ho]

/-- A deduplicated program, and the program with all blocks that it pays like. -/
theorem dgas_of {tbl : UInt8 → BitVec 16} {spec : SpecId} {limit : Nat} {bytes : List UInt8} {o : WOpts}
    {D : DCompiled} (hD : compileDedup o tbl spec limit bytes = some D) (hlen : bytes.length ≤ 2 ^ 31)
    (h0 : tbl op.STOP = 0)
    (hst : Steady { prog := (analyzeBytes tbl spec limit bytes).1, ai := (analyzeBytes tbl spec limit bytes).2 })
    (hplain : ∀ (i : Nat) d, (analyzeBytes tbl spec limit bytes).1.insts[i]? = some d → d.flags.deadCode = false → Plain d)
    {expCost : Word → Nat} {M : Nat} (hM : ∀ w, expCost w ≤ M)
    (hs : ((parse tbl spec bytes).toProg.insts.map (·.baseGas)).sum + (parse tbl spec bytes).toProg.insts.length * M < 2 ^ 32) :
    ∃ (s c : DState) (C : Compiled),
      GoodC (parse tbl spec bytes).toProg.insts (shallow (parse tbl spec bytes).toProg.insts) o C ∧
      C.code = (parse tbl spec bytes).toCode ∧ C.spec = spec ∧
      C.prog.blocks = (analyzeBytes tbl spec limit bytes).1.blocks ∧ c.redirects = D.redirects ∧ SumsFit C expCost ∧
      DSetup (parse tbl spec bytes).toCode limit (parse tbl spec bytes).toProg.insts
        (shallow (parse tbl spec bytes).toProg.insts) (parse tbl spec bytes).toProg.refresh
        (localSnapshots (parse tbl spec bytes).toCode limit (parse tbl spec bytes).toProg) s c ∧
      ∀ (F : Type) (env : Env F) (dyn : Nat → Nat → List Word → Nat) (clob : Nat → Int → Word) (mem : Int → Word) (g0 n : Nat),
        Placeless (parse tbl spec bytes).toProg.insts env → PlacelessCosts (parse tbl spec bytes).toProg.insts dyn →
        C.runG expCost env dyn clob mem g0 n ≠ .panic →
        GRel s c (C.runG expCost env dyn clob mem g0 n) (D.runG expCost env dyn clob mem g0 n) := by
  have hgas : ∀ (i j : Nat) d e, (parse tbl spec bytes).toProg.insts[i]? = some d →
      (parse tbl spec bytes).toProg.insts[j]? = some e → e.opcode = d.opcode → e.baseGas = d.baseGas :=
    fun i j d e hd he ho => parse_gas h0 hd he ho
  unfold compileDedup at hD
  dsimp only at hD
  have A := analysed_of tbl spec limit hlen
  revert hD hst hplain A
  generalize analyzeBytes tbl spec limit bytes = r
  intro hD hst hplain A
  obtain ⟨c, hc, hD⟩ := Option.bind_eq_some_iff.1 hD
  obtain ⟨bs, hbs, rfl⟩ := Option.map_eq_some_iff.1 hD
  have S := dsetup_of hlen A hst hplain hc
  obtain ⟨vs, hvs⟩ := S.compiles hbs
  have G := S.good (spec := spec) hvs
  have hsv := sumsFit_of G.sound.ev hM hs
  have hsc := sumsFit_of (C := { code := (parse tbl spec bytes).toCode, prog := c.prog, ai := c.ai, spec, blocks := bs })
    S.evc hM hs
  exact ⟨_, c, _, G, rfl, rfl, rfl, rfl, hsv, S,
    fun F env dyn clob mem g0 n henv hdyn hne => S.grun_sim hgas henv hdyn hbs hvs hsv hsc g0 n hne⟩

end Verif
