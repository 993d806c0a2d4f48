import Verif.Lemmas.FlowBlocks
import Verif.Lemmas.FlowCommit
/-!
# The local pass
-/

namespace Verif
open Spec

/-! ## Resolving a jump from recorded operands -/

/-- The recorded operands of instruction `i` describe the stack it runs with. -/
structure SnapAt (st : AIState) (i inp : Nat) (c : List Word) : Prop where
  snap : ∃ a, st.inputs i = (a.take inp).reverse ∧ AdmitsStack a c ∧ inp ≤ a.length

/-- The recorded operands describe every execution. -/
def SnapOk (code : Code) (base : List InstData) (ok : Nat → List Word → Prop) (st : AIState) : Prop :=
  ∀ i c d, Reach code base ok i c → base[i]? = some d → 0 < d.stackIo.1 → d.stackIo.1 ≤ c.length →
    SnapAt st i d.stackIo.1 c

/-- The recorded outputs describe every execution. -/
def OutOk (code : Code) (base : List InstData) (ok : Nat → List Word → Prop) (st : AIState) : Prop :=
  ∀ i c i' c' d v, Reach code base ok i c → Step code base i c i' c' → base[i]? = some d → 0 < d.stackIo.2 →
    isSwapLike d.opcode = false → st.outputs i = some v → ∃ w, c'.head? = some w ∧ Admits v w

theorem resolveCond_ok {v : AbsValue} {w : Word} (h : Admits v w) :
    (resolveCond v = .alwaysFalse → w = 0) ∧ (resolveCond v = .alwaysTrue → w ≠ 0) := by
  unfold resolveCond
  cases hl : v.constList with
  | none => simp
  | some l =>
    have hw : w ∈ l := (admits_constList hl w).1 h
    dsimp only
    refine ⟨fun hc => ?_, fun hc h0 => ?_⟩
    · split at hc
      · rename_i hz
        simp only [Bool.and_eq_true, Bool.not_eq_true', List.any_eq_false, bne_iff_ne, Decidable.not_not] at hz
        exact hz.2 w hw
      · split at hc <;> simp at hc
    · split at hc
      · simp at hc
      · split at hc
        · rename_i hz
          simp only [Bool.and_eq_true, Bool.not_eq_true', List.any_eq_false, beq_iff_eq] at hz
          exact hz.1 w hw h0
        · simp at hc

theorem mapM_mem {f : Word → Option Nat} : ∀ {s : List Word} {ts : List Nat}, s.mapM f = some ts → ∀ {w : Word}, w ∈ s →
    ∃ t ∈ ts, f w = some t
  | [], ts, _, w, hw => by simp at hw
  | x :: s, ts, h, w, hw => by
    rw [List.mapM_cons] at h
    simp only [Option.bind_eq_bind, Option.bind_eq_some_iff, Option.pure_def] at h
    obtain ⟨t, h1, ts', h2, h3⟩ := h
    cases h3
    rcases List.mem_cons.1 hw with rfl | hw
    · exact ⟨t, List.mem_cons_self, h1⟩
    · obtain ⟨t', h4, h5⟩ := mapM_mem h2 hw
      exact ⟨t', List.mem_cons_of_mem _ h4, h5⟩

theorem resolveOperand_ok {code : Code} {v : AbsValue} {w : Word} (h : Admits v w) :
    (∀ ts, resolveOperand code v = .resolved ts → ∃ t ∈ ts, code.target w = some t) ∧
    (resolveOperand code v = .invalid → code.target w = none) ∧ resolveOperand code v ≠ .bottom := by
  unfold resolveOperand
  cases v with
  | top => simp
  | const x =>
    have hx : w = x := h
    subst hx
    dsimp only
    cases code.target w <;> simp
  | constSet s =>
    have hw : w ∈ s := h
    dsimp only
    cases hm : s.mapM code.target with
    | none => simp
    | some ts =>
      obtain ⟨t, h1, h2⟩ := mapM_mem hm hw
      cases ts with
      | nil => simp at h1
      | cons a ts =>
        dsimp only
        refine ⟨fun ts' e => ?_, by simp, by simp⟩
        cases e
        exact ⟨t, h1, h2⟩

theorem admits_zero {a : List AbsValue} {c : List Word} (h : AdmitsStack a c) {v : AbsValue} {a' : List AbsValue}
    (ha : a = v :: a') (hc : 1 ≤ c.length) : Admits v (c.headD 0) := by
  subst ha
  cases c with
  | nil => simp at hc
  | cons w c => exact h 0 v w rfl rfl

theorem admits_one {a : List AbsValue} {c : List Word} (h : AdmitsStack a c) {u v : AbsValue} {a' : List AbsValue}
    (ha : a = u :: v :: a') (hc : 2 ≤ c.length) : Admits v (c.tail.headD 0) := by
  subst ha
  cases c with
  | nil => simp at hc
  | cons x c =>
    cases c with
    | nil => simp at hc
    | cons w c => exact h 1 v w rfl rfl

/-- What the recorded operands of an executed jump look like. -/
theorem jump_snap {code : Code} {base : List InstData} {ok : Nat → List Word → Prop} (wf : FlowWf code base)
    {st : AIState} {i : Nat} {c : List Word} {d : InstData} (hj : Jumps code base ok i c d)
    (hs : SnapAt st i d.stackIo.1 c) :
    (d.opcode = op.JUMP → ∃ v, st.inputs i = [v] ∧ Admits v (c.headD 0)) ∧
    (d.opcode = op.JUMPI → ∃ v u, st.inputs i = [u, v] ∧ Admits v (c.headD 0) ∧ Admits u (c.tail.headD 0)) := by
  have hio := wf.io i d hj.get (not_halts_off hj.runs)
  refine ⟨fun ho => ?_, fun ho => ?_⟩
  · have hio' := (jump_io hio).1 ho
    have ha : 1 ≤ c.length := by have := hj.args; unfold HasArgs at this; rw [if_pos ho] at this; exact this
    obtain ⟨a, h1, h2, h3⟩ := hs.snap
    rw [hio'] at h1 h3
    cases a with
    | nil => simp at h3
    | cons v a => exact ⟨v, by rw [h1]; simp, admits_zero h2 rfl ha⟩
  · have hio' := (jump_io hio).2 ho
    have ha : 2 ≤ c.length := by
      have := hj.args; unfold HasArgs at this; rw [if_neg (by rw [ho]; decide)] at this; exact this
    obtain ⟨a, h1, h2, h3⟩ := hs.snap
    rw [hio'] at h1 h3
    cases a with
    | nil => simp at h3
    | cons v a =>
      cases a with
      | nil => simp at h3
      | cons u a => exact ⟨v, u, by rw [h1]; simp, admits_zero h2 rfl (by omega), admits_one h2 rfl ha⟩

theorem SnapOk.at {code : Code} {base : List InstData} {ok : Nat → List Word → Prop} (wf : FlowWf code base)
    {st : AIState} {i : Nat} {c : List Word} {d : InstData} (hj : Jumps code base ok i c d)
    (hs : SnapOk code base ok st) : SnapAt st i d.stackIo.1 c := by
  have hio := wf.io i d hj.get (not_halts_off hj.runs)
  have ha := hj.args
  unfold HasArgs at ha
  rcases jump_cases hj.jump with ho | ho
  · have hio' := (jump_io hio).1 ho
    rw [if_pos ho] at ha
    exact hs i c d hj.reach hj.get (by rw [hio']; decide) (by rw [hio']; exact ha)
  · have hio' := (jump_io hio).2 ho
    rw [if_neg (by rw [ho]; decide)] at ha
    exact hs i c d hj.reach hj.get (by rw [hio']; decide) (by rw [hio']; exact ha)

/-- A jump is resolved truthfully from operands that describe its executions. -/
theorem resolveJump_ok {code : Code} {base : List InstData} {ok : Nat → List Word → Prop} (wf : FlowWf code base)
    {st : AIState} {i : Nat} {c : List Word} {d d' : InstData} (hj : Jumps code base ok i c d)
    (ho' : d'.opcode = d.opcode) (hs : SnapAt st i d.stackIo.1 c) (top : Bool) :
    ResOk code d.opcode top i c (resolveJump code st i d') ∧ (resolveJump code st i d').target ≠ .bottom := by
  obtain ⟨h1, h2⟩ := jump_snap wf hj hs
  unfold resolveJump
  dsimp only
  rw [ho']
  rcases jump_cases hj.jump with ho | ho
  · obtain ⟨v, e, hv⟩ := h1 ho
    rw [ho, e, if_neg (show ¬ (op.JUMP == op.JUMPI) = true by decide), if_neg (by simp)]
    obtain ⟨r1, r2, r3⟩ := resolveOperand_ok (code := code) hv
    exact ⟨⟨by simp, by simp, fun ts _ => r1 ts, r2, fun h => absurd h r3⟩, r3⟩
  · obtain ⟨v, u, e, hv, hu⟩ := h2 ho
    rw [ho, e, if_pos (show (op.JUMPI == op.JUMPI) = true by decide)]
    obtain ⟨r1, r2, r3⟩ := resolveOperand_ok (code := code) hv
    obtain ⟨q1, q2⟩ := resolveCond_ok hu
    simp only [List.head?_cons, List.getLast?_cons_cons, List.getLast?_singleton]
    by_cases hc : resolveCond u = .alwaysFalse
    · rw [if_pos hc]
      refine ⟨⟨fun _ => ⟨rfl, q1 hc, rfl⟩, by simp, by simp, by simp, by simp⟩, by simp⟩
    · rw [if_neg hc]
      exact ⟨⟨fun h => absurd h hc, fun h => ⟨rfl, q2 h⟩, fun ts _ => r1 ts, r2, fun h => absurd h r3⟩, r3⟩

/-! ## What the local pass records -/

/-- The snapshots of a block are those of interpreting it from `a`. -/
def SnapOf (code : Code) (limit : Nat) (p : Prog) (b : Nat × Nat) (a : List AbsValue) (st : AIState) : Prop :=
  ∃ st0, ∀ i, b.1 ≤ i → i < b.2 →
    st.inputs i = (interpBlock code limit (p.blockInsts b) st0 a).2.inputs i ∧
    st.outputs i = (interpBlock code limit (p.blockInsts b) st0 a).2.outputs i

theorem blockInsts_idx {p : Prog} {b : Nat × Nat} {x : Nat × InstData} (h : x ∈ p.blockInsts b) :
    p.insts[x.1]? = some x.2 ∧ b.1 ≤ x.1 ∧ (b.1 ≤ b.2 → x.1 < b.2) := by
  obtain ⟨h1, h2, h3⟩ := mem_slice h
  exact ⟨h1, h2, fun h => by omega⟩

/-- Interpreting another block keeps the snapshots of a block. -/
theorem SnapOf.other {code : Code} {limit : Nat} {p : Prog} {b b' : Nat × Nat} {a a' : List AbsValue}
    {st : AIState} (h : SnapOf code limit p b a st) (hle : b'.1 ≤ b'.2) (hd : b.2 ≤ b'.1 ∨ b'.2 ≤ b.1) :
    SnapOf code limit p b a (interpBlock code limit (p.blockInsts b') st a').2 := by
  obtain ⟨st0, h⟩ := h
  refine ⟨st0, fun i h1 h2 => ?_⟩
  have ho : ∀ x ∈ p.blockInsts b', x.1 ≠ i := by
    intro x hx
    obtain ⟨_, q1, q2⟩ := blockInsts_idx hx
    have := q2 hle
    omega
  obtain ⟨e1, e2⟩ := interpBlock_other (code := code) (limit := limit) (st := st) (a := a') ho
  rw [e1, e2]
  exact h i h1 h2

/-- Unknown operands, as many as the block needs. -/
def localEntry (p : Prog) (b : Nat × Nat) : List AbsValue :=
  List.replicate (sectionInputs (p.blockInsts b)) .top

theorem localBlock_fst (code : Code) (limit : Nat) (p : Prog) (b : Nat × Nat) (acc : AIState × List (Nat × JumpRes)) :
    (localBlock code limit p b acc).1 = (interpBlock code limit (p.blockInsts b) acc.1 (localEntry p b)).2 := by
  unfold localBlock localEntry
  dsimp only
  split
  · rfl
  · split
    · rfl
    · split
      · rfl
      · split <;> rfl

theorem localBlock_snd (code : Code) (limit : Nat) (p : Prog) (b : Nat × Nat) (acc : AIState × List (Nat × JumpRes))
    {x : Nat × JumpRes} (hx : x ∈ (localBlock code limit p b acc).2) : x ∈ acc.2 ∨
      (x.1 = b.2 - 1 ∧ ∃ d, p.insts[b.2 - 1]? = some d ∧ d.isJump = true ∧ d.flags.staticJump = false ∧
        x.2 = resolveJump code (localBlock code limit p b acc).1 (b.2 - 1) d) := by
  rw [localBlock_fst]
  unfold localBlock localEntry at *
  dsimp only at *
  split at hx
  · exact .inl hx
  · split at hx
    · exact .inl hx
    · rename_i d hd
      split at hx
      · exact .inl hx
      · rename_i hc
        simp only [Bool.or_eq_true, Bool.not_eq_true', not_or, Bool.not_eq_true, Bool.not_eq_false] at hc
        split at hx
        · rcases List.mem_append.1 hx with hx | hx
          · exact .inl hx
          · simp only [List.mem_singleton] at hx
            subst hx
            exact .inr ⟨rfl, d, hd, hc.1, hc.2, rfl⟩
        · exact .inl hx

theorem resolveJump_congr {code : Code} {st st' : AIState} {i : Nat} {d : InstData}
    (h : st'.inputs i = st.inputs i) : resolveJump code st' i d = resolveJump code st i d := by
  unfold resolveJump; rw [h]

/-- After the local pass: the snapshots of every block, and the resolutions. -/
theorem local_fold (code : Code) (limit : Nat) (p : Prog) : ∀ (bs done : List (Nat × Nat))
    (acc : AIState × List (Nat × JumpRes)), (done ++ bs).Pairwise (fun a b => a.2 ≤ b.1) →
    (∀ b ∈ done ++ bs, b.1 < b.2) →
    (∀ b ∈ done, SnapOf code limit p b (localEntry p b) acc.1) →
    (∀ x ∈ acc.2, ∃ b ∈ done, x.1 = b.2 - 1 ∧ ∃ d, p.insts[x.1]? = some d ∧ d.isJump = true ∧
      x.2 = resolveJump code acc.1 x.1 d) →
    (∀ b ∈ done ++ bs, SnapOf code limit p b (localEntry p b)
      (bs.foldl (fun acc b => localBlock code limit p b acc) acc).1) ∧
    (∀ x ∈ (bs.foldl (fun acc b => localBlock code limit p b acc) acc).2, ∃ d, p.insts[x.1]? = some d ∧
      d.isJump = true ∧ x.2 = resolveJump code (bs.foldl (fun acc b => localBlock code limit p b acc) acc).1 x.1 d) := by
  intro bs
  induction bs with
  | nil =>
    intro done acc hs hlt h1 h2
    rw [List.append_nil]
    exact ⟨h1, fun x hx => by obtain ⟨_, _, _, d, h⟩ := h2 x hx; exact ⟨d, h⟩⟩
  | cons b bs ih =>
    intro done acc hs hlt h1 h2
    have e : done ++ b :: bs = (done ++ [b]) ++ bs := by simp
    rw [List.foldl_cons]
    rw [e] at hs hlt ⊢
    have hltb := hlt b (by simp)
    have hdis : ∀ b' ∈ done, b'.2 ≤ b.1 := by
      intro b' hb'
      have := (List.pairwise_append.1 hs).1
      exact (List.pairwise_append.1 this).2.2 b' hb' b (by simp)
    refine ih (done ++ [b]) _ hs hlt (fun b' hb' => ?_) (fun x hx => ?_)
    · rw [localBlock_fst]
      rcases List.mem_append.1 hb' with hb' | hb'
      · exact (h1 b' hb').other (by omega) (.inl (hdis b' hb'))
      · rw [List.mem_singleton] at hb'
        subst hb'
        exact ⟨acc.1, fun i _ _ => ⟨rfl, rfl⟩⟩
    · rcases localBlock_snd code limit p b acc hx with hx | ⟨q1, d, q2, q3, _, q4⟩
      · obtain ⟨b', hb', q1, d, q2, q3, q4⟩ := h2 x hx
        refine ⟨b', by simp [hb'], q1, d, q2, q3, ?_⟩
        rw [q4]
        refine (resolveJump_congr ?_).symm
        rw [localBlock_fst]
        have := hdis b' hb'
        have := hlt b' (by simp [hb'])
        refine (interpBlock_other fun y hy => ?_).1
        have := (blockInsts_idx hy).2.1
        omega
      · refine ⟨b, by simp, q1, d, q1 ▸ q2, q3, ?_⟩
        rw [q1]; exact q4

/-! ## The local snapshots describe all executions -/

theorem slice_process {p : Prog} {code : Code} {s i : Nat} {c0 c : List Word} (h : Along code p s c0 i c) :
    ((p.slice s (i - s)).foldl (fun a p => a.process p.2.stackIo.1 p.2.stackIo.2) ({} : StackAcc)).diff =
      (c.length : Int) - c0.length := by
  induction h with
  | nil => simp [Prog.slice]
  | @snoc i c c' d hal hd hl hio hs ih =>
    have hle := hal.le
    have hd' : p.insts[s + (i - s)]? = some d := by rw [show s + (i - s) = i by omega]; exact hd
    obtain ⟨l1, l2, _⟩ := step_len hio hs
    rw [show i + 1 - s = (i - s) + 1 by omega, slice_succ hd', List.foldl_append]
    rw [List.foldl_cons, List.foldl_nil]
    show _ + ((d.stackIo.2 : Int) - d.stackIo.1) = _
    rw [ih]
    omega

/-- The operands the local pass provides are enough for every execution. -/
theorem local_need {p : Prog} {code : Code} {b : Nat × Nat} {j : Nat} {c0 cj : List Word} {d : InstData}
    (hal : Along code p b.1 c0 j cj) (hj : j < b.2) (hd : p.insts[j]? = some d) (hc : d.stackIo.1 ≤ cj.length)
    (h0 : c0.length ≤ 64) : d.stackIo.1 + c0.length ≤ (localEntry p b).length + cj.length := by
  have hle := hal.le
  have hdiff := slice_process hal
  have hd' : p.insts[b.1 + (j - b.1)]? = some d := by rw [show b.1 + (j - b.1) = j by omega]; exact hd
  unfold localEntry sectionInputs
  rw [List.length_replicate]
  unfold Prog.blockInsts
  rw [slice_split hd' (by omega), List.foldl_append, List.foldl_cons]
  revert hdiff
  generalize (p.slice b.1 (j - b.1)).foldl (fun a p => a.process p.2.stackIo.1 p.2.stackIo.2) ({} : StackAcc) = acc
  intro hdiff
  have hm := (window_mono (p.slice (b.1 + (j - b.1) + 1) (b.2 - b.1 - (j - b.1) - 1))
    (acc.process d.stackIo.1 d.stackIo.2)).1
  dsimp only at hm ⊢
  generalize (p.slice (b.1 + (j - b.1) + 1) (b.2 - b.1 - (j - b.1) - 1)).foldl
    (fun a p => a.process p.2.stackIo.1 p.2.stackIo.2) (acc.process d.stackIo.1 d.stackIo.2) = fin at hm ⊢
  have h1 : (acc.process d.stackIo.1 d.stackIo.2).inputs = max acc.inputs ((d.stackIo.1 : Int) - acc.diff) := rfl
  unfold StackAcc.section
  dsimp only
  split
  · omega
  · omega

theorem stackIo_base {base : List InstData} {p : Prog} (hev : Evolves base p.insts) {i : Nat} {d d' : InstData}
    (hd : base[i]? = some d) (hd' : p.insts[i]? = some d') : EvolvesInst d d' := hev.inst i d d' hd hd'

theorem snapOf_inputs {code : Code} {limit : Nat} {p : Prog} {b : Nat × Nat} {st : AIState} {a : List AbsValue}
    (hs : SnapOf code limit p b a st) {i : Nat} {c0 c : List Word} (hb : b.1 < b.2)
    (hal : Along code p b.1 c0 i c) (hi : i < b.2) (ha : AdmitsStack a c0)
    (need : ∀ j d cj, j ≤ i → Along code p b.1 c0 j cj → p.insts[j]? = some d → d.stackIo.1 ≤ cj.length →
      d.stackIo.1 + c0.length ≤ a.length + cj.length) {d : InstData} (hd : p.insts[i]? = some d)
    (hl : d.flags.deadCode = false) (hpos : 0 < d.stackIo.1) (hc : d.stackIo.1 ≤ c.length) :
    SnapAt st i d.stackIo.1 c := by
  obtain ⟨st0, hs⟩ := hs
  obtain ⟨a1, g1, g2, g3⟩ := along_inputs (limit := limit) (st := st0) (n := b.2 - b.1) hal (by omega) ha need hd hl
    hpos hc
  exact ⟨a1, by rw [(hs i hal.le hi).1]; exact g1, g2, g3⟩

theorem head_admits {a : List AbsValue} {c : List Word} {v : AbsValue} (h : AdmitsStack a c)
    (ha : a.head? = some v) (hc : 0 < c.length) : ∃ w, c.head? = some w ∧ Admits v w := by
  cases c with
  | nil => simp at hc
  | cons w c =>
    cases a with
    | nil => simp at ha
    | cons u a => cases ha; exact ⟨w, rfl, h 0 _ w rfl rfl⟩

theorem snapOf_outputs {code : Code} {limit : Nat} {p : Prog} {b : Nat × Nat} {st : AIState} {a : List AbsValue}
    (hs : SnapOf code limit p b a st) {i : Nat} {c0 c c' : List Word} (hb : b.1 < b.2)
    (hal : Along code p b.1 c0 i c) (hi : i < b.2) (ha : AdmitsStack a c0)
    (need : ∀ j d cj, j ≤ i → Along code p b.1 c0 j cj → p.insts[j]? = some d → d.stackIo.1 ≤ cj.length →
      d.stackIo.1 + c0.length ≤ a.length + cj.length) {d : InstData} (hd : p.insts[i]? = some d)
    (hl : d.flags.deadCode = false)
    (hio : d.stackIo = computeStackIo d.opcode (some [UInt8.ofNat (code.imm i).toNat]))
    (hst : StackStep code.codeLen d.data d.opcode.toNat (code.imm i) d.stackIo.1 d.stackIo.2 c c')
    (hout : 0 < d.stackIo.2) (hsw : isSwapLike d.opcode = false) {v : AbsValue} (hv : st.outputs i = some v) :
    ∃ w, c'.head? = some w ∧ Admits v w := by
  obtain ⟨st0, hs⟩ := hs
  obtain ⟨a2, g1, g2⟩ := along_outputs (limit := limit) (st := st0) (n := b.2 - b.1) hal (by omega) ha need hd hl
    hio hst hout hsw
  have e := (hs i hal.le hi).2
  rw [hv] at e
  have e2 : (interpBlock code limit (p.blockInsts b) st0 a).2.outputs i = a2.head? := g1
  refine head_admits g2 (e2.symm.trans e.symm) ?_
  rw [(step_len hio hst).2.1]; omega

theorem admits_tops (k : Nat) (c : List Word) : AdmitsStack (List.replicate k .top) c := by
  intro i v w hv _
  rw [List.getElem?_replicate] at hv
  split at hv
  · have := Option.some.inj hv; subst this; trivial
  · simp at hv

theorem local_snapOk {code : Code} {limit : Nat} {base : List InstData} {ok : Nat → List Word → Prop} {p : Prog}
    (wf : FlowWf code base) (h : Sound code base ok p) (hf : Flagged p)
    (hok : ∀ i c, ok i c → shallow base i c) {st : AIState}
    (hs : ∀ b ∈ p.blocks, SnapOf code limit p b (localEntry p b) st) :
    SnapOk code base ok st ∧ OutOk code base ok st := by
  refine ⟨fun i c d hr hd hpos hc => ?_, fun i c i' c' d v hr hst hd hout hsw hv => ?_⟩
  · obtain ⟨b, hb, c0, h1, h2, h3, h4⟩ := reach_blocks wf h hf hr
    obtain ⟨d', hd', he⟩ := h.ev.get hd
    obtain ⟨d1, hd1, hl⟩ := h.live i c hr
    rw [hd'] at hd1; cases hd1
    rw [← he.io] at hpos hc ⊢
    have h0 := start_shallow wf h hf hok hb h3
    exact snapOf_inputs (hs b hb) (p.blocks_ok.range b hb).2.1 h4 h2 (admits_tops _ _)
      (fun j d cj hj hal hdj hcj => local_need hal (by omega) hdj hcj h0) hd' hl hpos hc
  · obtain ⟨b, hb, c0, h1, h2, h3, h4⟩ := reach_blocks wf h hf hr
    obtain ⟨d', hd', he⟩ := h.ev.get hd
    obtain ⟨d1, hd1, hl⟩ := h.live i c hr
    rw [hd'] at hd1; cases hd1
    rw [← he.io] at hout
    rw [← he.op] at hsw
    have h0 := start_shallow wf h hf hok hb h3
    obtain ⟨_, hio, heff⟩ := step_effect wf h.ev hst hd'
    exact snapOf_outputs (hs b hb) (p.blocks_ok.range b hb).2.1 h4 h2 (admits_tops _ _)
      (fun j d cj hj hal hdj hcj => local_need hal (by omega) hdj hcj h0) hd' hl hio heff hout hsw hv

/-- The local pass is right. -/
theorem local_sound {code : Code} {limit : Nat} {base : List InstData} {ok : Nat → List Word → Prop} {p : Prog}
    (wf : FlowWf code base) (h : Sound code base ok p) (hf : Flagged p)
    (hok : ∀ i c, ok i c → shallow base i c) (st : AIState) :
    Sound code base ok (blockAnalysisLocal code limit p st).1 ∧
      SnapOk code base ok (blockAnalysisLocal code limit p st).2 ∧
      OutOk code base ok (blockAnalysisLocal code limit p st).2 := by
  have hfold := local_fold code limit p p.blocks [] (st, []) (by simpa using p.blocks_ok.sorted)
    (fun b hb => (p.blocks_ok.range b (by simpa using hb)).2.1) (by simp) (by simp)
  rw [List.nil_append] at hfold
  have hso : SnapOk code base ok (blockAnalysisLocal code limit p st).2 ∧
      OutOk code base ok (blockAnalysisLocal code limit p st).2 := local_snapOk wf h hf hok hfold.1
  refine ⟨?_, hso⟩
  unfold blockAnalysisLocal at hso ⊢
  dsimp only at hso ⊢
  have h1 := commit_sound h (p.blocks.foldl (fun acc b => localBlock code limit p b acc) (st, [])).2
    (local_atJumps code limit p p.blocks (st, []) (fun r hr => by simp at hr)) (fun x hx c d hj => by
      obtain ⟨d', hd', _, e⟩ := hfold.2 x hx
      rw [e]
      exact (resolveJump_ok wf hj (h.ev.inst x.1 d d' hj.get hd').op (hso.1.at wf hj) _).1)
  exact h1.hasDyn

end Verif
