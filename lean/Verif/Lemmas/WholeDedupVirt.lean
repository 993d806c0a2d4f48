import Verif.Lemmas.WholeDedupFacts
import Verif.Lemmas.WholeDedupRel
import Verif.Lemmas.WholeEnd
/-!
# The program before deduplication, with the constants of the blocks that replace its own

The deduplicated program `c` is compared with a program that has the blocks of the analysed program `s`, each
with what is recorded in `c` for the block that has replaced it.
-/

namespace Verif
open Spec

/-- What is known when code is generated: `p1` is the refreshed parsed program, `loc` what the block-local analysis
records for it, `s` the analysed program and `c` the deduplicated one. -/
structure DSetup (code : Code) (limit : Nat) (base : List InstData) (ok : Nat → List Word → Prop) (p1 : Prog)
    (loc : AIState) (s c : DState) : Prop where
  wf : FlowWf code base
  inst : ∀ (i : Nat) d, base[i]? = some d → Wf code (i, d)
  same : ∀ (i j : Nat) d e, base[i]? = some d → base[j]? = some e → e.opcode = d.opcode →
    e.flags.disabled = d.flags.disabled ∧ e.flags.unknown = d.flags.unknown
  hok : ∀ i c, ok i c → shallow base i c
  sound1 : Sound code base ok p1
  flagged1 : Flagged p1
  static1 : ∀ (i : Nat) d, p1.insts[i]? = some d → d.flags.staticJump = false
  loc1 : ∀ b ∈ p1.blocks, SnapOf code limit p1 b (localEntry p1 b) loc
  ev1 : Evolves p1.insts s.prog.insts
  sound : Sound code base ok s.prog
  snap : SnapOk code base ok s.ai
  out : OutOk code base ok s.ai
  flagged : Flagged s.prog
  noswap : NoSwapOut base s.ai ∧ NoSwapOut base loc
  exp : ExpOut base s.ai ∧ ExpOut base loc
  steady : Steady s
  after : After loc s c
  block : ∀ b ∈ s.prog.blocks, ∃ b' ∈ c.prog.blocks, BlockRel code c.redirects s.prog b c.prog b'

/-- Where instruction `i` of a block among `bs` has its counterpart. -/
def shiftIdx (bs : List (Nat × Nat)) (m : Redirects) (i : Nat) : Nat :=
  match bs.find? fun b => decide (b.1 ≤ i) && decide (i < b.2) with
  | none => i
  | some b => effective m b.1 + (i - b.1)

theorem shiftIdx_in {p : Prog} {m : Redirects} {b : Nat × Nat} (hb : b ∈ p.blocks) {i : Nat} (h1 : b.1 ≤ i) (h2 : i < b.2) :
    shiftIdx p.blocks m i = effective m b.1 + (i - b.1) := by
  unfold shiftIdx
  cases hf : p.blocks.find? fun b => decide (b.1 ≤ i) && decide (i < b.2) with
  | none =>
    have := List.find?_eq_none.1 hf b hb
    simp [h1, h2] at this
  | some x =>
    have hx := List.find?_some hf
    simp only [Bool.and_eq_true, decide_eq_true_eq] at hx
    have : x = b := block_disjoint (List.mem_of_find?_eq_some hf) hb hx.1 hx.2 h1 h2
    subst this
    rfl

theorem EvolvesInst.isBranching {d d' : InstData} (h : EvolvesInst d d') : d'.isBranching = d.isBranching := by
  unfold InstData.isBranching
  rw [h.isJump]
  cases hj : d.isJump with
  | true => rfl
  | false =>
    have hj' : d'.isJump = false := h.isJump.trans hj
    unfold InstData.isJump at hj hj'
    rw [Bool.or_eq_false_iff] at hj hj'
    unfold InstData.isDiverging
    rw [h.op] at hj' ⊢
    rw [h.dis, h.unk, hj.1]
    rfl

theorem EvolvesInst.live {d d' : InstData} (h : EvolvesInst d d') (hl : d'.flags.deadCode = false) :
    d.flags.deadCode = false := by
  cases hd : d.flags.deadCode with
  | false => rfl
  | true => rw [h.dead hd] at hl; cases hl

theorem Evolves.live {l l' : List InstData} (h : Evolves l l') {i : Nat} (hl : LiveAt l' i) : LiveAt l i := by
  obtain ⟨d', h1, h2⟩ := hl
  obtain ⟨d, g1, g2⟩ := h.back h1
  exact ⟨d, g1, g2.live h2⟩

theorem EvolvesInst.wf {code : Code} {i : Nat} {d d' : InstData} (h : EvolvesInst d d') (hw : Wf code (i, d)) :
    Wf code (i, d') := by
  obtain ⟨a, b, c⟩ := hw
  dsimp only at a b c
  refine ⟨by show d'.flags.noop = false; rw [h.noop]; exact a, fun ho => ?_, fun ho => ?_⟩
  · dsimp only at ho ⊢
    rw [h.dis, h.unk] at ho
    rw [h.io]; exact b ho
  · dsimp only at ho ⊢
    rw [h.dis, h.unk] at ho
    rw [h.io, h.op]; exact c ho

theorem not_branching_on {d : InstData} (h : d.isBranching = false) :
    (d.flags.disabled || d.flags.unknown) = false ∧ d.isJump = false := by
  unfold InstData.isBranching at h
  rw [Bool.or_eq_false_iff] at h
  refine ⟨?_, h.1⟩
  have h2 := h.2
  unfold InstData.isDiverging at h2
  cases h3 : d.flags.disabled <;> cases h4 : d.flags.unknown <;> simp_all

theorem reach_ok {code : Code} {base : List InstData} {ok : Nat → List Word → Prop} {i : Nat} {c : List Word}
    (h : Reach code base ok i c) : ok i c := by
  cases h with
  | start h => exact h
  | step _ _ h => exact h

/-- Inside a block, execution came from anywhere earlier in the block. -/
theorem reach_back {code : Code} {base : List InstData} {ok : Nat → List Word → Prop} {p : Prog}
    (wf : FlowWf code base) (h : Sound code base ok p) (hf : Flagged p) {i : Nat} {c : List Word}
    (hr : Reach code base ok i c) : ∀ {b : Nat × Nat}, b ∈ p.blocks → b.1 ≤ i → i < b.2 → ∀ t, b.1 ≤ t → t ≤ i →
      ∃ c0, Reach code base ok t c0 ∧ Along code p t c0 i c := by
  induction hr with
  | start hok =>
    intro b _ _ _ t _ ht
    have : t = 0 := by omega
    subst this
    exact ⟨[], .start hok, .nil⟩
  | @step i i' c c' hr hs hok ih =>
    intro b hb h1 h2 t h3 h4
    have hr' : Reach code base ok i' c' := .step hr hs hok
    by_cases ht : t = i'
    · subst ht; exact ⟨c', hr', .nil⟩
    · obtain ⟨d, hd, hl⟩ := h.live i c hr
      obtain ⟨_, hio, heff⟩ := step_effect wf h.ev hs hd
      have hin := p.blocks_ok.inside b hb i' (by omega) h2
      cases leaves_of_step wf h hf hr hs hd with
      | jumps dt _ g1 g2 => rw [reachable_leader g1 g2] at hin; cases hin
      | next g1 g2 _ _ _ _ =>
        subst g1
        unfold InstData.isStaticJump at g2
        rw [Bool.and_eq_true] at g2
        rw [live_not_leader hd hl g2.1] at hin; cases hin
      | falls g1 g2 =>
        subst g1
        obtain ⟨c0, q1, q2⟩ := ih hb (by omega) (by omega) t h3 (by omega)
        exact ⟨c0, q1, .snoc q2 hd hl hio heff⟩

section setup
variable {code : Code} {limit : Nat} {base : List InstData} {ok : Nat → List Word → Prop} {p1 : Prog} {loc : AIState}
  {s c : DState} (S : DSetup code limit base ok p1 loc s c)
include S

theorem DSetup.evc1 : Evolves p1.insts c.prog.insts := S.ev1.trans S.after.ev

theorem DSetup.evc : Evolves base c.prog.insts := S.sound.ev.trans S.after.ev

/-- The starts of the deduplicated blocks start blocks of the parsed program. -/
theorem DSetup.leader1 {b' : Nat × Nat} (hb : b' ∈ c.prog.blocks) : p1.isLeader b'.1 = true := by
  have dyn : (∃ (j : Nat) (d : InstData), c.prog.insts[j]? = some d ∧ d.flags.deadCode = false ∧ d.isJump = true) →
      p1.hasDyn = true := by
    rintro ⟨j, d, h1, h2, h3⟩
    obtain ⟨e, g1, g2⟩ := S.evc1.back h1
    exact S.flagged1.dyn j e g1 (g2.live h2) (g2.isJump ▸ h3) (S.static1 j e g1)
  rcases leader_cases (S.after.steady.anch.start hb) with h | ⟨d, h1, h2⟩ | ⟨h0, d, h1, h2, h3⟩
  · rw [h]; simp [Prog.isLeader]
  · obtain ⟨e, g1, g2⟩ := S.evc1.back h1
    refine reachable_leader g1 ?_
    unfold InstData.isReachableJumpdest at h2 ⊢
    rw [Bool.and_eq_true, Bool.or_eq_true] at h2
    have hjd : e.isJumpdest = true := by
      have := h2.1
      unfold InstData.isJumpdest at this ⊢
      rw [← g2.op]; exact this
    have hd : p1.hasDyn = true := by
      apply dyn
      by_cases hy : c.prog.hasDyn = true
      · rw [S.after.steady.dyn] at hy
        unfold Prog.recomputeHasDyn at hy
        dsimp only at hy
        obtain ⟨x, hx, hy⟩ := List.any_eq_true.1 hy
        obtain ⟨j, hj⟩ := List.mem_iff_getElem?.1 hx
        simp only [Bool.and_eq_true, Bool.not_eq_true'] at hy
        exact ⟨j, x, hj, hy.2, hy.1.1⟩
      · have hre : d.reachable = true := by
          rcases h2.2 with h | h
          · first | exact h | exact absurd h hy
          · first | exact h | exact absurd h hy
        obtain ⟨t, ⟨j, x, hj, hx⟩, _⟩ := (S.after.steady.exact _ d h1 h2.1).1 hre
        obtain ⟨x1, x2, _⟩ := mem_targetsOf_iff.1 hx
        unfold InstData.isStaticJump at x2
        rw [Bool.and_eq_true] at x2
        exact ⟨j, x, hj, x1, x2.1⟩
    rw [hjd, hd]; simp
  · obtain ⟨e, g1, g2⟩ := S.evc1.back h1
    exact leader_after h0 g1 (g2.live h2) (g2.isBranching ▸ h3)

/-- Inside a deduplicated block, only JUMPDESTs start blocks of the parsed program. -/
theorem DSetup.inner1 {b' : Nat × Nat} (hb : b' ∈ c.prog.blocks) {j : Nat} (h1 : b'.1 < j) (h2 : j < b'.2)
    (hl : p1.isLeader j = true) : ∃ d, base[j]? = some d ∧ d.opcode = op.JUMPDEST := by
  rcases leader_cases hl with h | ⟨d, g1, g2⟩ | ⟨h0, d, g1, _, g3⟩
  · omega
  · obtain ⟨e, e1, e2⟩ := S.sound1.ev.back g1
    refine ⟨e, e1, ?_⟩
    unfold InstData.isReachableJumpdest InstData.isJumpdest at g2
    simp only [Bool.and_eq_true, beq_iff_eq] at g2
    rw [← e2.op]; exact g2.1
  · exfalso
    obtain ⟨e, e1, e2⟩ := S.evc1.get g1
    have := S.after.steady.anch.inner_fall hb (j := j - 1) (by omega) (by omega) e1
    rw [e2.isBranching, g3] at this
    cases this

variable {b b' : Nat × Nat} (hb : b ∈ s.prog.blocks) (hb' : b' ∈ c.prog.blocks)
  (hr : BlockRel code c.redirects s.prog b c.prog b')
include hb hb' hr

theorem DSetup.start_eq : effective c.redirects b.1 = b'.1 :=
  ((ends_effective S.after.steady.direct).1 hr.start).symm

theorem DSetup.len_eq : b'.2 - b'.1 = b.2 - b.1 := by
  have := hr.body.length
  rw [(blockInsts_at hb).1, (blockInsts_at hb').1] at this
  exact this.symm

/-- Corresponding instructions. -/
theorem DSetup.pair {n : Nat} (hn : n < b.2 - b.1) : ∃ d d', s.prog.insts[b.1 + n]? = some d ∧
    c.prog.insts[b'.1 + n]? = some d' ∧ InstRel code (b.1 + n, d) (b'.1 + n, d') ∧
    d.flags.deadCode = false ∧ d'.flags.deadCode = false ∧ d'.flags.disabled = d.flags.disabled ∧
    d'.flags.unknown = d.flags.unknown ∧ d'.stackIo = d.stackIo ∧ d.flags.noop = false ∧ d'.flags.noop = false := by
  have hlen := S.len_eq hb hb' hr
  obtain ⟨d, h1, h2⟩ := (blockInsts_at hb).2 n hn
  obtain ⟨d', h3, h4⟩ := (blockInsts_at hb').2 n (by omega)
  have hi := hr.body.at h2 h4
  obtain ⟨e, e1, e2⟩ := S.steady.anch.block_live hb (j := b.1 + n) (by omega) (by omega)
  rw [h1] at e1; cases e1
  obtain ⟨e', e1', e2'⟩ := S.after.steady.anch.block_live hb' (j := b'.1 + n) (by omega) (by omega)
  rw [h3] at e1'; cases e1'
  obtain ⟨x, x1, x2⟩ := S.sound.ev.back h1
  obtain ⟨y, y1, y2⟩ := S.evc.back h3
  have hop : y.opcode = x.opcode := by rw [← y2.op, ← x2.op]; exact hi.opc.symm
  obtain ⟨hs1, hs2⟩ := S.same _ _ x y x1 y1 hop
  have hdis : d'.flags.disabled = d.flags.disabled := by rw [y2.dis, x2.dis, hs1]
  have hunk : d'.flags.unknown = d.flags.unknown := by rw [y2.unk, x2.unk, hs2]
  have wx := x2.wf (S.inst _ _ x1)
  have wy := y2.wf (S.inst _ _ y1)
  refine ⟨d, d', h1, h3, hi, e2, e2', hdis, hunk, ?_, wx.noop, wy.noop⟩
  cases hoff : d.flags.disabled || d.flags.unknown with
  | true =>
    have a := wx.off hoff
    have b := wy.off (by show (d'.flags.disabled || d'.flags.unknown) = true; rw [hdis, hunk]; exact hoff)
    exact b.trans a.symm
  | false =>
    have a := wx.io hoff
    have b := wy.io (by show (d'.flags.disabled || d'.flags.unknown) = false; rw [hdis, hunk]; exact hoff)
    dsimp only at a b
    by_cases he : 0xe6 ≤ d.opcode.toNat ∧ d.opcode.toNat ≤ 0xe8
    · have := hi.imm (.inr he)
      dsimp only at this
      rw [a, b, this, show d.opcode = d'.opcode from hi.opc]
    · exact (hi.io he).symm

/-- Execution inside a block, seen in the parsed program at the place of the counterpart. -/
theorem DSetup.move {k m : Nat} {c0 cc : List Word} (hm : m < b.2 - b.1)
    (hal : Along code s.prog (b.1 + k) c0 (b.1 + m) cc) : Along code p1 (b'.1 + k) c0 (b'.1 + m) cc := by
  have hlen := S.len_eq hb hb' hr
  generalize hi : b.1 + m = i at hal
  induction hal generalizing m with
  | nil =>
    have : m = k := by omega
    subst this
    exact .nil
  | @snoc j c1 c2 d hal hd hl hio hst ih =>
    have hle := hal.le
    obtain ⟨n, rfl⟩ : ∃ n, j = b.1 + n := ⟨j - b.1, by omega⟩
    have hmn : m = n + 1 := by omega
    subst hmn
    have h1 := ih (m := n) (by omega) rfl
    obtain ⟨e, e', g1, g2, g3, _, _, _⟩ := S.pair hb hb' hr (n := n) (by omega)
    rw [hd] at g1; cases g1
    obtain ⟨e1, x1, x2⟩ := S.evc1.back g2
    obtain ⟨e0, y1, y2⟩ := S.sound1.ev.back x1
    have hbr := S.after.steady.anch.inner_fall hb' (j := b'.1 + n) (by omega) (by omega) g2
    have hbr1 : e1.isBranching = false := by rw [← x2.isBranching]; exact hbr
    obtain ⟨o1, o2⟩ := not_branching_on hbr1
    have hlive := S.after.steady.anch.block_live hb' (j := b'.1 + n) (by omega) (by omega)
    obtain ⟨z, z1, z2⟩ := S.evc1.live hlive
    rw [x1] at z1; cases z1
    have hio1 := y2.ioOk (S.wf.io _ e0 y1) o1
    have hst' := g3.step hst
    dsimp only at hst'
    rw [x2.op, x2.io, x2.data o2] at hst'
    rw [show b'.1 + (n + 1) = b'.1 + n + 1 by omega]
    exact .snoc h1 x1 z2 hio1 hst'

/-- A visited instruction of a block, seen in the parsed program at the place of the counterpart. -/
theorem DSetup.moved {n : Nat} (hn : n < b.2 - b.1) {cc : List Word} (hre : Reach code base ok (b.1 + n) cc) :
    ∃ B ∈ p1.blocks, ∃ c0, B.1 ≤ b'.1 + n ∧ b'.1 + n < B.2 ∧ c0.length ≤ 64 ∧ Along code p1 B.1 c0 (b'.1 + n) cc := by
  have hlen := S.len_eq hb hb' hr
  have hlive : ∀ j, b'.1 ≤ j → j < b'.2 → LiveAt p1.insts j := fun j h1 h2 =>
    S.evc1.live (S.after.steady.anch.block_live hb' h1 h2)
  obtain ⟨B, hB, q1, q2⟩ := p1.blocks_ok.cover (b'.1 + n) (by omega) (hlive _ (by omega) (by omega))
  have hge : b'.1 ≤ B.1 := by
    rcases Nat.lt_or_ge B.1 b'.1 with hlt | hge
    · have := p1.blocks_ok.inside B hB b'.1 hlt (by omega)
      rw [S.leader1 hb'] at this; cases this
    · exact hge
  obtain ⟨k, hk⟩ : ∃ k, B.1 = b'.1 + k := ⟨B.1 - b'.1, by omega⟩
  obtain ⟨c0, r1, r2⟩ := reach_back S.wf S.sound S.flagged hre hb (by omega) (by omega) (b.1 + k) (by omega) (by omega)
  refine ⟨B, hB, c0, q1, q2, ?_, by rw [hk]; exact S.move hb hb' hr hn r2⟩
  by_cases h0 : k = 0
  · subst h0
    exact start_shallow S.wf S.sound S.flagged S.hok hb (by simpa using r1)
  · have hjd : ∃ d, base[b'.1 + k]? = some d ∧ d.opcode = op.JUMPDEST := by
      rcases p1.blocks_start hB with h | h | h
      · omega
      · rw [hk] at h
        exact S.inner1 hb' (by omega) (by omega) h
      · exact absurd (hlive _ (by omega) (by omega)) h
    obtain ⟨d, e1, e2⟩ := hjd
    obtain ⟨x, x', g1, g2, g3, _⟩ := S.pair hb hb' hr (n := k) (by omega)
    obtain ⟨y, y1, y2⟩ := S.sound.ev.back g1
    obtain ⟨z, z1, z2⟩ := S.evc.back g2
    rw [e1] at z1; cases z1
    refine S.hok _ _ (reach_ok r1) (.inl ⟨y, y1, ?_⟩)
    have : x.opcode = x'.opcode := g3.opc
    rw [← y2.op, this, z2.op, e2]; rfl

theorem DSetup.loc_inputs {n : Nat} (hn : n < b.2 - b.1) {cc : List Word} {d0 : InstData}
    (hre : Reach code base ok (b.1 + n) cc) (hd : base[b.1 + n]? = some d0) (hpos : 0 < d0.stackIo.1)
    (hc : d0.stackIo.1 ≤ cc.length) : SnapAt loc (b'.1 + n) d0.stackIo.1 cc := by
  have hlen := S.len_eq hb hb' hr
  obtain ⟨B, hB, c0, q1, q2, q3, q4⟩ := S.moved hb hb' hr hn hre
  obtain ⟨x, x', g1, g2, g3, _, g4, _, _, g5, _⟩ := S.pair hb hb' hr hn
  obtain ⟨e1, x1, x2⟩ := S.evc1.back g2
  have hio : e1.stackIo = d0.stackIo := by
    rw [← x2.io, g5, (S.sound.ev.inst _ _ _ hd g1).io]
  rw [← hio] at hpos hc ⊢
  exact snapOf_inputs (S.loc1 B hB) (p1.blocks_ok.range B hB).2.1 q4 q2 (admits_tops _ _)
    (fun j d cj hj hal hdj hcj => local_need hal (by omega) hdj hcj q3) x1 (x2.live g4) hpos hc

theorem DSetup.loc_outputs {n : Nat} (hn : n < b.2 - b.1) {i' : Nat} {cc cc' : List Word} {d0 : InstData} {v : AbsValue}
    (hre : Reach code base ok (b.1 + n) cc) (hst : Step code base (b.1 + n) cc i' cc')
    (hd : base[b.1 + n]? = some d0) (hout : 0 < d0.stackIo.2)
    (hsw : isSwapLike d0.opcode = false) (hv : loc.outputs (b'.1 + n) = some v) :
    ∃ w, cc'.head? = some w ∧ Admits v w := by
  have hlen := S.len_eq hb hb' hr
  obtain ⟨B, hB, c0, q1, q2, q3, q4⟩ := S.moved hb hb' hr hn hre
  obtain ⟨x, x', g1, g2, g3, _, g4, g6, g7, g5, _⟩ := S.pair hb hb' hr hn
  obtain ⟨e1, x1, x2⟩ := S.evc1.back g2
  obtain ⟨e0, y1, y2⟩ := S.sound1.ev.back x1
  have hev := S.sound.ev.inst _ _ _ hd g1
  obtain ⟨hh, hio, heff⟩ := step_effect S.wf S.sound.ev hst g1
  have hoff := not_halts_off hh
  have hio0 : e1.stackIo = d0.stackIo := by rw [← x2.io, g5, hev.io]
  have hop0 : e1.opcode = d0.opcode := by rw [← x2.op, ← hev.op]; exact g3.opc.symm
  have hoff1 : (e1.flags.disabled || e1.flags.unknown) = false := by rw [← x2.dis, ← x2.unk, g6, g7]; exact hoff
  have hio1 := y2.ioOk (S.wf.io _ e0 y1) hoff1
  have hj1 : e1.isJump = false := by
    cases hj : e1.isJump with
    | false => rfl
    | true =>
      exfalso
      unfold InstData.isJump at hj
      simp only [Bool.or_eq_true, beq_iff_eq] at hj
      rw [← hio0] at hout
      rcases hj with hj | hj
      · rw [(jump_io hio1).1 hj] at hout; simp at hout
      · rw [(jump_io hio1).2 hj] at hout; simp at hout
  have hst' := g3.step heff
  dsimp only at hst'
  rw [x2.op, x2.io, x2.data hj1] at hst'
  rw [← hio0] at hout
  rw [← hop0] at hsw
  exact snapOf_outputs (S.loc1 B hB) (p1.blocks_ok.range B hB).2.1 q4 q2 (admits_tops _ _)
    (fun j d cj hj hal hdj hcj => local_need hal (by omega) hdj hcj q3) x1 (x2.live g4) hio1 hst' hout hsw hv

/-- In a block that is not its own counterpart only the block-local constants are left. -/
theorem DSetup.own (n : Nat) (hn : n < b.2 - b.1) : b' = b ∨ AgreesAt loc c.ai (b'.1 + n) := by
  have hlen := S.len_eq hb hb' hr
  have hst := S.start_eq hb hb' hr
  by_cases he : b'.1 = b.1
  · left
    have h1 := (s.prog.blocks_ok.range b hb).2.1
    have h2 := (c.prog.blocks_ok.range b' hb').2.1
    exact Prod.ext he (by omega)
  · right
    have hg : c.redirects.get b.1 = some b'.1 := by
      unfold effective at hst
      cases hg : c.redirects.get b.1 with
      | none => rw [hg] at hst; exact absurd hst.symm he
      | some v => rw [hg] at hst; exact congrArg some hst
    obtain ⟨x, hx, hxv, hxa⟩ := S.after.consts _ _ hg
    have hx' : x = b' := by
      have h2 := (c.prog.blocks_ok.range b' hb').2.1
      have h3 := (c.prog.blocks_ok.range x hx).2.1
      exact block_disjoint hx hb' (j := b'.1) (by omega) (by omega) (by omega) h2
    subst hx'
    exact hxa _ (by omega) (by omega)

end setup

end Verif
