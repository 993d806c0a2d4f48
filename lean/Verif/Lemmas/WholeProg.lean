import Verif.Lemmas.WholeStep
import Verif.Lemmas.FlowParse
import Verif.Props.Flow
/-!
# What the analyses guarantee for every instruction of a whole program
-/

namespace Verif
open Spec
variable {F : Type}

/-! ## What is recorded for an instruction -/

/-- A property of what is recorded for every instruction. -/
def RecOk (P : InstData → List AbsValue → Option AbsValue → Prop) (base : List InstData) (st : AIState) : Prop :=
  ∀ i d, base[i]? = some d → P d (st.inputs i) (st.outputs i)

/-- The property is kept whenever the instruction is interpreted. -/
def RecStep (P : InstData → List AbsValue → Option AbsValue → Prop) : Prop :=
  ∀ (code : Code) (limit i : Nat) (st : AIState) (d d0 : InstData) (a : List AbsValue),
    d0.opcode = d.opcode → d0.stackIo = d.stackIo → P d0 (st.inputs i) (st.outputs i) →
    P d0 ((interpInst code limit st i d a).2.inputs i) ((interpInst code limit st i d a).2.outputs i)

section rec
variable {P : InstData → List AbsValue → Option AbsValue → Prop} (hP : RecStep P)
include hP

theorem interpInst_recOk {code : Code} {limit i : Nat} {st : AIState} {d : InstData} {a : List AbsValue}
    {base : List InstData} (hb : ∃ d0, base[i]? = some d0 ∧ d0.opcode = d.opcode ∧ d0.stackIo = d.stackIo)
    (h : RecOk P base st) : RecOk P base (interpInst code limit st i d a).2 := by
  intro j dj hj
  by_cases hji : j = i
  · subst hji
    obtain ⟨d0, h0, h1, h2⟩ := hb
    rw [hj] at h0; cases h0
    exact hP code limit j st d dj a h1 h2 (h j dj hj)
  · rw [(interpInst_other hji).1, (interpInst_other hji).2]
    exact h j dj hj

theorem interpBlock_rec {code : Code} {limit : Nat} {base : List InstData} {l : List (Nat × InstData)}
    (hb : ∀ x ∈ l, ∃ d0, base[x.1]? = some d0 ∧ d0.opcode = x.2.opcode ∧ d0.stackIo = x.2.stackIo)
    {st : AIState} {a : List AbsValue}
    (h : RecOk P base st) : RecOk P base (interpBlock code limit l st a).2 := by
  induction l generalizing st a with
  | nil => exact h
  | cons x l ih =>
    obtain ⟨i, d⟩ := x
    have h1 := interpInst_recOk hP (code := code) (limit := limit) (a := a) (hb (i, d) (by simp)) h
    simp only [interpBlock]
    split
    · exact h1
    · exact ih (fun x hx => hb x (by simp [hx])) h1

omit hP in
theorem slice_base {base : List InstData} {p : Prog} (hev : Evolves base p.insts) (s n : Nat) :
    ∀ x ∈ p.slice s n, ∃ d0, base[x.1]? = some d0 ∧ d0.opcode = x.2.opcode ∧ d0.stackIo = x.2.stackIo := by
  intro x hx
  obtain ⟨d0, h0, he⟩ := hev.back (mem_slice hx).1
  exact ⟨d0, h0, he.op.symm, he.io.symm⟩

omit hP in
theorem restore_rec {base : List InstData} {st loc : AIState} {q : Nat → Bool} (h : RecOk P base st)
    (hl : RecOk P base loc) : RecOk P base (restore st loc q) := by
  intro i d hd
  unfold restore
  dsimp only
  split
  · exact hl i d hd
  · exact h i d hd

theorem local_rec {code : Code} {limit : Nat} {base : List InstData} {p : Prog} (hev : Evolves base p.insts)
    {st : AIState} (h : RecOk P base st) : RecOk P base (blockAnalysisLocal code limit p st).2 := by
  unfold blockAnalysisLocal
  dsimp only
  have : ∀ (bs : List (Nat × Nat)) (acc : AIState × List (Nat × JumpRes)), RecOk P base acc.1 →
      RecOk P base (bs.foldl (fun acc b => localBlock code limit p b acc) acc).1 := by
    intro bs
    induction bs with
    | nil => intro acc h; exact h
    | cons b bs ih =>
      intro acc h
      rw [List.foldl_cons]
      apply ih
      rw [localBlock_fst]
      exact interpBlock_rec hP (slice_base hev _ _) h
  exact this _ _ h

theorem fixStep_rec {code : Code} {limit : Nat} {base : List InstData} {p : Prog} (hev : Evolves base p.insts)
    {bs : List (Nat × Nat)} {b : Nat} {f : FixState} (h : RecOk P base f.ai) :
    RecOk P base (fixStep code limit p bs b f).ai := by
  unfold fixStep
  split
  · dsimp only
    split
    · exact interpBlock_rec hP (slice_base hev _ _) h
    · exact interpBlock_rec hP (slice_base hev _ _) h
  · exact h

theorem fixLoop_rec {code : Code} {limit : Nat} {base : List InstData} {p : Prog} (hev : Evolves base p.insts)
    {bs : List (Nat × Nat)} (fuel : Nat) : ∀ {f : FixState}, RecOk P base f.ai →
    RecOk P base (fixLoop code limit p bs fuel f).1.ai := by
  induction fuel with
  | zero =>
    intro f h
    unfold fixLoop
    split <;> exact h
  | succ n ih =>
    intro f h
    unfold fixLoop
    split
    · exact h
    · exact ih (fixStep_rec hP hev h)

theorem blockAnalysis_rec {code : Code} {limit : Nat} {base : List InstData} {p : Prog}
    (hev : Evolves base p.insts) {loc st : AIState} (hl : RecOk P base loc) (h : RecOk P base st) :
    RecOk P base (blockAnalysis code limit p loc st).2 := by
  unfold blockAnalysis runAbstractInterp
  dsimp only
  have h1 : RecOk P base (runFixpoint code limit p p.blocks st).1.ai := by
    unfold runFixpoint
    exact fixLoop_rec hP hev _ h
  have h2 : RecOk P base (if (runFixpoint code limit p p.blocks st).2 = true then
      (runFixpoint code limit p p.blocks st).1.ai
      else restore (runFixpoint code limit p p.blocks st).1.ai loc fun _ => true) := by
    split
    · exact h1
    · exact restore_rec h1 hl
  revert h2
  generalize (if (runFixpoint code limit p p.blocks st).2 = true then
      (runFixpoint code limit p p.blocks st).1.ai
      else restore (runFixpoint code limit p p.blocks st).1.ai loc fun _ => true) = st1
  intro h2
  split
  · exact restore_rec h2 hl
  · exact h2

theorem analyzeFlow_rec {code : Code} {limit : Nat} {p : Prog} (wf : FlowWf code p.insts)
    (hinit : ∀ d, P d [] none) : RecOk P p.insts (analyzeFlow code limit p).2 := by
  have hok : ∀ i c, shallow p.insts i c → shallow p.insts i c := fun _ _ h => h
  obtain ⟨s1, f1⟩ := refresh_sound wf (sound_fresh (ok := shallow p.insts) wf)
  have h2 := local_sound (limit := limit) wf s1 f1 hok {}
  have h0 : RecOk P p.insts (blockAnalysisLocal code limit p.refresh {}).2 :=
    local_rec hP s1.ev (fun _ d _ => hinit d)
  rw [analyzeFlow_snd]
  revert h2 h0
  generalize blockAnalysisLocal code limit p.refresh {} = q
  rintro ⟨s2, _, _⟩ h0
  obtain ⟨s3, _⟩ := refresh_sound wf s2
  exact blockAnalysis_rec hP s3.ev h0 h0

end rec

/-! ## No result is recorded for the exchanges -/

/-- No result is recorded for SWAP, SWAPN and EXCHANGE. -/
def NoSwapOut (base : List InstData) (st : AIState) : Prop :=
  ∀ i d, base[i]? = some d → isSwapLike d.opcode = true → st.outputs i = none

theorem recStep_noSwap : RecStep fun d _ o => isSwapLike d.opcode = true → o = none := by
  intro code limit i st d d0 a h1 _ h hsw
  rw [h1] at hsw
  unfold interpInst
  split
  · exact h (h1 ▸ hsw)
  · dsimp only
    have := interpOp_snapshots code limit i (if 0 < d.stackIo.1 then
        { st with inputs := fun k => if k = i then (a.take d.stackIo.1).reverse else st.inputs k }
      else st) d a
    have hn : ¬ (0 < d.stackIo.2 ∧ ¬ isSwapLike d.opcode = true) := fun hh => hh.2 hsw
    split
    · rw [this.2]
      split <;> exact h (h1 ▸ hsw)
    · rw [if_neg hn, this.2]
      split <;> exact h (h1 ▸ hsw)

theorem analyzeFlow_noSwap {code : Code} {limit : Nat} {p : Prog} (wf : FlowWf code p.insts) :
    NoSwapOut p.insts (analyzeFlow code limit p).2 :=
  analyzeFlow_rec (limit := limit) recStep_noSwap wf (fun _ _ => rfl)

/-! ## The result of an EXP is only known with its exponent -/

/-- If the result of an EXP whose operands were recorded is a constant, so is its exponent. -/
def ExpOut (base : List InstData) (st : AIState) : Prop :=
  ∀ i d, base[i]? = some d → d.opcode = op.EXP → d.stackIo = (2, 1) → (st.inputs i).length = 2 →
    (st.constOutput i).isSome = true → (st.constOperand i 1).isSome = true

theorem interpOp_exp {code : Code} {limit i : Nat} {st : AIState} {d : InstData} {a : List AbsValue}
    (hop : d.opcode = op.EXP) (hio : d.stackIo = (2, 1)) :
    interpOp code limit st i d a = if a.length < 2 then (none, st)
      else (some (match (tryFold code limit st d 2 1 a).1 with
        | some w => .const w :: a.drop 2
        | none => List.replicate 1 .top ++ a.drop 2), (tryFold code limit st d 2 1 a).2) := by
  unfold interpOp
  rw [hop, hio]
  rfl

theorem tryFold_exp {code : Code} {limit : Nat} {st : AIState} {d : InstData} {x y : AbsValue} {r : List AbsValue}
    (hop : d.opcode = op.EXP) {w : Word} (h : (tryFold code limit st d 2 1 (x :: y :: r)).1 = some w) :
    ∃ e, y = .const e := by
  have h2 : tryConstFold d [y, x] code.codeLen = some w := by
    unfold tryFold at h
    split at h
    · dsimp only at h
      split at h
      · cases h
      · split at h
        · split at h
          · rename_i h2
            cases h
            exact h2
          · cases h
        · cases h
    · cases h
  unfold tryConstFold at h2
  rw [hop, if_neg (by decide), if_neg (by decide)] at h2
  split at h2
  · rename_i h3; simp at h3
  · rename_i h3
    simp only [List.cons.injEq] at h3
    exact ⟨_, h3.1⟩
  · rename_i h3; simp at h3
  · cases h2

theorem recStep_exp : RecStep fun d l o => d.opcode = op.EXP → d.stackIo = (2, 1) → l.length = 2 →
    (o.bind AbsValue.asConst).isSome = true → ((l.reverse[1]?).bind AbsValue.asConst).isSome = true := by
  intro code limit i st d d0 a h1 h2 h hop hio
  have h := h hop hio
  rw [h1] at hop
  rw [h2] at hio
  unfold interpInst
  split
  · exact h
  · dsimp only
    obtain ⟨st2, hst, hin⟩ : ∃ st2 : AIState, (if 0 < d.stackIo.1 then
        { st with inputs := fun k => if k = i then (a.take d.stackIo.1).reverse else st.inputs k }
      else st) = st2 ∧ st2.inputs i = (a.take 2).reverse :=
      ⟨_, rfl, by rw [hio, if_pos (by show 0 < 2; omega)]; exact if_pos rfl⟩
    rw [hst]
    have hsnap := (interpOp_snapshots code limit i st2 d a).1
    rw [interpOp_exp hop hio] at hsnap ⊢
    by_cases hl : a.length < 2
    · rw [if_pos hl]
      dsimp only
      rw [hin]
      intro h2
      rw [List.length_reverse, List.length_take] at h2
      omega
    · rw [if_neg hl] at hsnap ⊢
      dsimp only at hsnap ⊢
      rw [if_pos ⟨by rw [hio]; show 0 < 1; omega, by rw [hop]; decide⟩]
      dsimp only
      rw [hsnap, hin]
      match a, hl with
      | [], hl => exact absurd (by simp) hl
      | [x], hl => exact absurd (by simp) hl
      | x :: y :: r, _ =>
        intro _
        rw [if_pos rfl]
        split
        · rename_i w hw
          obtain ⟨e, rfl⟩ := tryFold_exp hop hw
          intro _; rfl
        · intro hc; exact absurd hc (by simp [AbsValue.asConst])

theorem analyzeFlow_exp {code : Code} {limit : Nat} {p : Prog} (wf : FlowWf code p.insts) :
    ExpOut p.insts (analyzeFlow code limit p).2 :=
  analyzeFlow_rec (limit := limit) recStep_exp wf (fun _ _ _ h => by simp at h)

/-! ## Parsed instructions -/

theorem parse_noop (g : UInt8 → BitVec 16) (spec : SpecId) (code : List UInt8) {x : Nat × InstData}
    (hx : x ∈ (parse g spec code).insts) : x.2.flags.noop = false ∧
      ((x.2.flags.disabled || x.2.flags.unknown) = true → x.2.stackIo = (0, 0)) := by
  rcases parse_mem g spec code hx with hm | rfl
  · obtain ⟨_, _, _, it0, _, _, h⟩ := parseLoop_mem _ code code 0 [] (Or.inr (by simp)) _ hm
    rw [h]
    refine ⟨rfl, fun hoff => ?_⟩
    unfold mkInst at hoff ⊢
    dsimp only at hoff ⊢
    rw [if_neg]
    unfold opActive
    rw [Bool.or_comm] at hoff
    rw [hoff]; simp
  · exact ⟨rfl, fun h => by cases h⟩

/-- Analysed instructions are as dead-store elimination expects them. -/
theorem wf_of {g : UInt8 → BitVec 16} {spec : SpecId} {bytes : List UInt8} (hlen : bytes.length ≤ 2 ^ 31)
    {p : Prog} (hev : Evolves (parse g spec bytes).toProg.insts p.insts) {i : Nat} {d : InstData}
    (hd : p.insts[i]? = some d) : Wf (parse g spec bytes).toCode (i, d) := by
  obtain ⟨d0, h0, he⟩ := hev.back hd
  obtain ⟨pc, hpc⟩ := toProg_get h0
  have hn := parse_noop g spec bytes (List.mem_of_getElem? hpc)
  refine ⟨by show d.flags.noop = false; rw [he.noop]; exact hn.1, fun hoff => ?_, fun hoff => ?_⟩
  · show d.stackIo = _
    rw [he.io]
    apply hn.2
    change (d.flags.disabled || d.flags.unknown) = true at hoff
    rw [he.dis, he.unk] at hoff; exact hoff
  · exact (he.ioOk (parse_io g spec bytes hlen i d0 h0)) hoff

/-! ## One executed instruction -/

section step
variable {code : Code} {p : Prog} {ai : AIState} {env : Env F} {clob : Nat → Int → Word} {k s i : Nat}
  {d : InstData} {c c' : List Word}

theorem snapAt_const (hs : 0 < d.stackIo.1 → SnapAt ai i d.stackIo.1 c) (hlen : d.stackIo.1 ≤ c.length) :
    ∀ q w, q < d.stackIo.1 → ai.constOperand i q = some w → c[q]? = some w := by
  intro n v hn hv
  obtain ⟨a, h1, h2, h3⟩ := (hs (by omega)).snap
  unfold AIState.constOperand at hv
  rw [h1, List.reverse_reverse, List.getElem?_take_of_lt hn] at hv
  obtain ⟨x, hx1, hx2⟩ := Option.bind_eq_some_iff.1 hv
  have hc : n < c.length := by omega
  rw [List.getElem?_eq_getElem hc]
  rw [asConst_admits hx2 (h2 n x _ hx1 (List.getElem?_eq_getElem hc))]

theorem push_silent (o : UInt8) (h : 0x5f ≤ o.toNat ∧ o.toNat ≤ 0x7f) : mute o.toNat = true ∧
    callOp o.toNat = false ∧ (o == op.JUMP) = false ∧ (o == op.JUMPI) = false ∧
    [op.CALL, op.CALLCODE, op.DELEGATECALL, op.STATICCALL, op.CREATE, op.CREATE2].contains o = false := by
  revert o; decide +kernel

theorem pure_table (o : UInt8) (h : o.toNat < 0x50 ∨ o.toNat = 0x58) :
    (o == op.JUMP) = false ∧ (o == op.JUMPI) = false ∧
    [op.CALL, op.CALLCODE, op.DELEGATECALL, op.STATICCALL, op.CREATE, op.CREATE2].contains o = false := by
  revert o; decide +kernel

/-- An executed instruction. -/
theorem step_fit (hd : p.insts[i]? = some d) (wf : Wf code (i, d)) (hh : ¬ Halts d)
    (hst : StackStep code.codeLen d.data d.opcode.toNat (code.imm i) d.stackIo.1 d.stackIo.2 c c')
    (hf : Follows code env (k + (i - s)) i d c c') (hw : WorldX ai p.insts env)
    (hsnap : 0 < d.stackIo.1 → SnapAt ai i d.stackIo.1 c)
    (hout : ∀ c2, StackStep code.codeLen d.data d.opcode.toNat (code.imm i) d.stackIo.1 d.stackIo.2 c c2 →
      ∀ v, 0 < d.stackIo.2 → isSwapLike d.opcode = false → ai.constOutput i = some v → c2.head? = some v)
    (hsw : isSwapLike d.opcode = true → ai.outputs i = none) :
    Fit (toT code ai (actOf code p env k s) clob (i, d)) c c' (observed env (k + (i - s)) i d c) := by
  have hoff := not_halts_off hh
  have hno : d.flags.noop = false := wf.noop
  have hio := wf.io hoff
  simp only at hio
  obtain ⟨hlen, hlen', hdec⟩ := step_len hio hst
  have hstd := stdIo_of hio
  have hsn := snapAt_const hsnap hlen
  have hbyte : (UInt8.ofNat (code.imm i).toNat).toNat = (code.imm i).toNat % 256 := by simp
  -- lowering of the shuffles
  have hshuf : (0x80 ≤ d.opcode.toNat ∧ d.opcode.toNat ≤ 0x9f) ∨ d.opcode.toNat = 0xe6 ∨
      d.opcode.toNat = 0xe7 ∨ d.opcode.toNat = 0xe8 ∨ d.opcode.toNat = 0x50 → lowerOf code ai i d =
        (if d.opcode.toNat = 0x50 then .popIgnore
        else if 0x80 ≤ d.opcode.toNat ∧ d.opcode.toNat ≤ 0x8f then .dup (d.opcode.toNat - 0x80 + 1)
        else if 0x90 ≤ d.opcode.toNat ∧ d.opcode.toNat ≤ 0x9f then .exchange 0 (d.opcode.toNat - 0x90 + 1)
        else if d.opcode.toNat = 0xe6 then
          match decodeImm code i d.opcode with
          | some (.single k) => .dup k
          | _ => .nop
        else if d.opcode.toNat = 0xe7 then
          match decodeImm code i d.opcode with
          | some (.single k) => .exchange 0 k
          | _ => .nop
        else if d.opcode.toNat = 0xe8 then
          match decodeImm code i d.opcode with
          | some (.pair a b) => .exchange a (b - a)
          | _ => .nop
        else lowerPlain d.opcode d.stackIo.1 (ai.constOperand i)) := by
    intro hsh
    obtain ⟨t1, t2, t3⟩ := shuffle_table d.opcode hsh
    have hj : d.isJump = false := by unfold InstData.isJump; rw [t1, t2]; rfl
    have hs : d.maySuspend = false := t3
    unfold lowerOf
    simp only [hoff, hj, hs, Bool.false_eq_true, if_false]
    rfl
  have hswc : isSwapLike d.opcode = true → ai.constOutput i = none := by
    intro h
    unfold AIState.constOutput
    rw [hsw h]; rfl
  have hst0 := hst
  generalize hinp : d.stackIo.1 = inp at hst
  generalize hpout : d.stackIo.2 = out at hst
  cases hst with
  | push _ h1 h2 =>
    obtain ⟨s1, s2, s3, s4, s5⟩ := push_silent _ ⟨h1, h2⟩
    have hpt := push_table _ ⟨h1, h2⟩
    have hio' : d.stackIo = tableStackIo d.opcode :=
      hstd (by simp only [List.mem_cons, List.not_mem_nil, or_false, not_or]; omega)
    have hlow : lowerOf code ai i d = lowerPlain d.opcode d.stackIo.1 (ai.constOperand i) := by
      have hj : d.isJump = false := by unfold InstData.isJump; rw [s3, s4]; rfl
      have hs : d.maySuspend = false := s5
      unfold lowerOf
      simp only [hoff, hj, hs, Bool.false_eq_true, if_false]
      rw [if_neg (by omega), if_neg (by omega), if_neg (by omega), if_neg (by omega), if_neg (by omega),
        if_neg (by omega)]
    have hfit := plain_fit (k := k) (s := s) (clob := clob) hd hoff hno hio' hstd hlow s5 hw hlen hsn (fun w h0 hc => by
      refine ⟨by rw [hio', hpt.1], ?_, hw.quiet _ _ _ _ hd s1⟩
      rw [actOf_push hd ⟨h1, h2⟩]
      have := hout _ hst0 w h0 hpt.2.2.2.2 hc
      simpa using this)
    rw [actOf_push hd ⟨h1, h2⟩] at hfit
    have : d.stackIo.1 = 0 := by rw [hio', hpt.1]
    rw [this] at hfit
    exact hfit
  | dup _ w h1 h2 hwc =>
    have hsil := shuffle_silent d.opcode (.inl ⟨h1, by omega⟩)
    obtain ⟨a1, a2, a3, a4⟩ := dup_table _ ⟨h1, h2⟩
    have hlow := hshuf (.inl ⟨h1, by omega⟩)
    rw [if_neg (by omega), if_pos ⟨h1, h2⟩] at hlow
    have hio' : d.stackIo = (d.opcode.toNat - 0x80 + 1, d.opcode.toNat - 0x80 + 1 + 1) := by
      rw [hio]; unfold computeStackIo; rw [if_neg a2, if_neg a3, if_neg a4, a1]
    have hnsw : isSwapLike d.opcode = false := by
      have : ∀ o : UInt8, (0x80 ≤ o.toNat ∧ o.toNat ≤ 0x8f) → isSwapLike o = false := by decide +kernel
      exact this _ ⟨h1, h2⟩
    refine dup_fit hd hno hw (n := d.opcode.toNat - 0x80 + 1) (by omega) hio' hlow hsil (by simpa using hwc) hsn
      (fun v hv => ?_)
    have := hout _ hst0 v (by rw [hio']; dsimp only; omega) hnsw hv
    simpa using this
  | swap x y m r h1 h2 hm =>
    have hsil := shuffle_silent d.opcode (.inl ⟨by omega, h2⟩)
    obtain ⟨a1, a2, a3, a4⟩ := swap_table _ ⟨h1, h2⟩
    have hlow := hshuf (.inl ⟨by omega, h2⟩)
    rw [if_neg (by omega), if_neg (by omega), if_pos ⟨h1, h2⟩, ← hm] at hlow
    have hio' : d.stackIo = (([] : List Word).length + (m.length + 1) + 1, ([] : List Word).length + (m.length + 1) + 1) := by
      rw [hio, hm]; unfold computeStackIo; rw [if_neg a2, if_neg a3, if_neg a4, a1]
      simp
    have hsw' : isSwapLike d.opcode = true := by
      have : ∀ o : UInt8, (0x90 ≤ o.toNat ∧ o.toNat ≤ 0x9f) → isSwapLike o = true := by decide +kernel
      exact this _ ⟨h1, h2⟩
    exact exchange_fit (q := []) hd hno hw hio' hlow hsil rfl hsn (hswc hsw')
  | dupn _ w n h1 hn hwc =>
    have ho : d.opcode = op.DUPN := toNat_eq (k := 0xe6) (by omega) h1
    have hsil := shuffle_silent d.opcode (.inr (.inl h1))
    have hs := decodeSingle_spec (UInt8.ofNat (code.imm i).toNat)
    rw [hbyte, hn] at hs
    obtain ⟨m, hm, hmn⟩ := Option.map_eq_some_iff.1 hs
    have hs1 := single_shape (UInt8.ofNat (code.imm i).toNat)
    rw [hm] at hs1
    simp only [Option.all_some, decide_eq_true_eq] at hs1
    have hlow := hshuf (.inr (.inl h1))
    have hdi : decodeImm code i d.opcode = some (.single n) := by
      rw [ho]
      show (decodeSingle _).map _ = _
      rw [hm, Option.map_some, hmn]
    rw [if_neg (by omega), if_neg (by omega), if_neg (by omega), if_pos h1, hdi] at hlow
    unfold computeStackIo at hio
    dsimp only at hio
    rw [if_pos ho, hm] at hio
    simp only [Option.map_some, Option.getD_some, hmn] at hio
    have hnsw : isSwapLike d.opcode = false := by rw [ho]; rfl
    refine dup_fit hd hno hw (n := n) (by omega) hio hlow hsil hwc hsn
      (fun v hv => ?_)
    have := hout _ hst0 v (by rw [hio]; dsimp only; omega) hnsw hv
    simpa using this
  | swapn x y m r h1 hn =>
    have ho : d.opcode = op.SWAPN := toNat_eq (k := 0xe7) (by omega) h1
    have hsil := shuffle_silent d.opcode (.inr (.inr (.inl h1)))
    have hs := decodeSingle_spec (UInt8.ofNat (code.imm i).toNat)
    rw [hbyte, hn] at hs
    obtain ⟨k', hk, hkn⟩ := Option.map_eq_some_iff.1 hs
    have hlow := hshuf (.inr (.inr (.inl h1)))
    have hdi : decodeImm code i d.opcode = some (.single (m.length + 1)) := by
      rw [ho]
      show (decodeSingle _).map _ = _
      rw [hk, Option.map_some, hkn]
    rw [if_neg (by omega), if_neg (by omega), if_neg (by omega), if_neg (by omega), if_pos h1, hdi] at hlow
    unfold computeStackIo at hio
    dsimp only at hio
    rw [if_neg (by rw [ho]; decide), if_pos ho, hk] at hio
    simp only [Option.map_some, Option.getD_some, hkn] at hio
    refine exchange_fit (q := []) hd hno hw (by rw [hio]; simp) hlow hsil rfl hsn (hswc (by rw [ho]; rfl))
  | exchange x y q m r h1 hn =>
    have ho : d.opcode = op.EXCHANGE := toNat_eq (k := 0xe8) (by omega) h1
    have hsil := shuffle_silent d.opcode (.inr (.inr (.inr (.inl h1))))
    have hs := decodePair_spec (UInt8.ofNat (code.imm i).toNat)
    rw [hbyte, hn] at hs
    obtain ⟨k', hk, hkn⟩ := Option.map_eq_some_iff.1 hs
    have hlow := hshuf (.inr (.inr (.inr (.inl h1))))
    rw [Prod.mk.injEq] at hkn
    have hdi : decodeImm code i d.opcode = some (.pair q.length (q.length + m.length + 1)) := by
      rw [ho]
      show (decodePair _).map _ = _
      rw [hk, Option.map_some, hkn.1, hkn.2]
    rw [if_neg (by omega), if_neg (by omega), if_neg (by omega), if_neg (by omega), if_neg (by omega), if_pos h1,
      hdi] at hlow
    dsimp only at hlow
    rw [show q.length + m.length + 1 - q.length = m.length + 1 by omega] at hlow
    unfold computeStackIo at hio
    dsimp only at hio
    rw [if_neg (by rw [ho]; decide), if_neg (by rw [ho]; decide), if_pos ho, hk] at hio
    simp only [Option.map_some, Option.getD_some, hkn.2] at hio
    exact exchange_fit hd hno hw (by rw [hio]; rfl) hlow hsil rfl hsn (hswc (by rw [ho]; rfl))
  | pure args r w hev =>
    obtain ⟨e1, e2, e3⟩ := evalOp_table hev
    have hm := pureOps_table _ (evalOp_mem hev)
    have hlt : d.opcode.toNat < 0x50 ∨ d.opcode.toNat = 0x58 := by
      have : ∀ q ∈ pureOps, q.1 < 0x50 ∨ q.1 = 0x58 := by decide +kernel
      have := this (d.opcode.toNat, args.length) (evalOp_mem hev)
      exact this
    obtain ⟨s3, s4, s5⟩ := pure_table d.opcode hlt
    have hio' : d.stackIo = tableStackIo d.opcode :=
      hstd (by simp only [List.mem_cons, List.not_mem_nil, or_false, not_or]; omega)
    have hlow : lowerOf code ai i d = lowerPlain d.opcode d.stackIo.1 (ai.constOperand i) := by
      have hj : d.isJump = false := by unfold InstData.isJump; rw [s3, s4]; rfl
      have hs : d.maySuspend = false := s5
      unfold lowerOf
      simp only [hoff, hj, hs, Bool.false_eq_true, if_false]
      rw [if_neg (by omega), if_neg (by omega), if_neg (by omega), if_neg (by omega), if_neg (by omega),
        if_neg (by omega)]
    have hi : d.stackIo.1 = args.length := by rw [hio', e1]
    have htake : (args ++ r).take d.stackIo.1 = args := by rw [hi]; simp
    have hdrop : (args ++ r).drop d.stackIo.1 = r := by rw [hi]; simp
    have hnsw : isSwapLike d.opcode = false := by
      have : ∀ o : UInt8, o.toNat < 0x5f → isSwapLike o = false := by decide +kernel
      exact this _ e2
    have hfit := plain_fit (k := k) (s := s) (clob := clob) hd hoff hno hio' hstd hlow s5 hw hlen hsn (fun w' h0 hc => by
      refine ⟨by rw [hio', e1], ?_, ?_⟩
      rotate_left
      · rcases silent_pure hev with h | h
        · exact hw.quiet _ _ _ _ hd h
        · refine hw.exp _ _ _ _ hd h ?_
          unfold expPaid expRuntimeCharge
          rw [hc]; rfl
      rw [htake, actOf_pure hd hev]
      have := hout _ hst0 w' h0 hnsw hc
      simpa using this)
    rw [htake, hdrop, actOf_pure hd hev] at hfit
    exact hfit
  | other args res r h1 hn hl1 hl2 hev =>
    have htake : (args ++ r).take d.stackIo.1 = args := by rw [hinp, ← hl1]; simp
    have hdrop : (args ++ r).drop d.stackIo.1 = r := by rw [hinp, ← hl1]; simp
    have hio' : d.stackIo = tableStackIo d.opcode := hstd hn
    have hf' := hf h1 hn (by rw [htake]; exact hev)
    have hn' : d.opcode.toNat ≠ 0xe6 ∧ d.opcode.toNat ≠ 0xe7 ∧ d.opcode.toNat ≠ 0xe8 := by
      simpa using hn
    have hact : actOf code p env k s i args = env (k + (i - s)) i args :=
      actOf_env hd (by omega) hev
    by_cases h50 : d.opcode.toNat = 0x50
    · have ho := toNat_eq (k := 0x50) (by omega) h50
      have hio2 : d.stackIo = (1, 0) := by rw [hio', ho]; rfl
      have hlow := hshuf (.inr (.inr (.inr (.inr h50))))
      rw [if_pos h50] at hlow
      have hsil := shuffle_silent d.opcode (.inr (.inr (.inr (.inr h50))))
      have hfit := pop_fit (env := env) (k := k) (s := s) (clob := clob) hd hno hw hio2 hlow hsil
        (by rw [hio2] at hlen; exact hlen) hsn
      rw [hio2] at hpout hdrop
      dsimp only at hpout hdrop
      rw [hdrop] at hfit
      have : res = [] := List.length_eq_zero_iff.1 (by omega)
      rw [this]; exact hfit
    obtain ⟨g1, g2, g3, g4, g5, g6, g7⟩ := generic_table d.opcode (by omega) hn'.1 hn'.2.1 hn'.2.2 h50
    rw [← hio'] at g1
    have hnco : 0 < d.stackIo.2 → ai.constOutput i = none := by
      intro h0
      have hnsw : isSwapLike d.opcode = false := by
        have : ∀ o : UInt8, ¬ (0x5f ≤ o.toNat ∧ o.toNat ≤ 0x9f) → o.toNat ≠ 0xe6 ∧ o.toNat ≠ 0xe7 ∧ o.toNat ≠ 0xe8 →
            isSwapLike o = false := by decide +kernel
        exact this _ h1 hn'
      cases hc : ai.constOutput i with
      | none => rfl
      | some v =>
        exfalso
        have hone : d.stackIo.2 = 1 := by omega
        have := hout ([v + 1] ++ r) (.other args [v + 1] r h1 hn (by rw [hinp]; exact hl1) (by rw [hone]; rfl) hev) v h0 hnsw hc
        simp only [List.singleton_append, List.head?_cons, Option.some.injEq] at this
        have h2 := congrArg BitVec.toNat this
        rw [BitVec.toNat_add] at h2
        have hv := v.isLt
        have h3 : (1 : Word).toNat = 1 := by decide
        rw [h3] at h2
        omega
    have hjl := kind_of (st := ai) wf hoff
    by_cases hj : d.isJump = true
    · have hio2 : d.stackIo = if d.opcode == op.JUMPI then (2, 0) else (1, 0) := by
        rw [hio']
        unfold InstData.isJump at hj
        cases hji : (d.opcode == op.JUMPI) with
        | true => rw [if_pos rfl]; exact g6 hji
        | false =>
          rw [if_neg (by simp)]
          rw [hji, Bool.or_false] at hj
          exact (g5 hj).2
      have hlow : lowerOf code ai i d = .branch (!d.flags.invalidJump && (d.flags.multiJump || !d.flags.staticJump))
          (d.opcode == op.JUMPI) (d.opcode == op.JUMPI && !d.hasConstJumpiCondition) := by
        unfold lowerOf
        simp only [hoff, hj, Bool.false_eq_true, if_false, if_true]
      have hfit := jump_fit (env := env) (k := k) (s := s) (clob := clob) hd hno hw hj hlow hio2 hlen hsn
      have ho0 : d.stackIo.2 = 0 := by rw [hio2]; split <;> rfl
      rw [hdrop] at hfit
      have : res = [] := List.length_eq_zero_iff.1 (by omega)
      rw [this]; exact hfit
    · have hj' : d.isJump = false := by simpa using hj
      have hres : res ++ r = (actOf code p env k s i args).1 ++ r := by
        rw [hact]
        rw [htake, hdrop] at hf'
        exact hf'
      by_cases hs : d.maySuspend = true
      · have hlow : lowerOf code ai i d = .suspend := by
          unfold lowerOf
          simp only [hoff, hj', hs, Bool.false_eq_true, if_false, if_true]
        have hone : d.stackIo.2 = 1 := by rw [hio']; exact (g7 hs).1
        have hfit := suspend_fit (env := env) (k := k) (s := s) (clob := clob) hd hoff hno hstd hw hs hlow hone hlen hsn
          (hnco (by omega))
        rw [htake, hdrop, ← hres] at hfit
        exact hfit
      · have hs' : d.maySuspend = false := by simpa using hs
        have hlow : lowerOf code ai i d = lowerPlain d.opcode d.stackIo.1 (ai.constOperand i) := by
          unfold lowerOf
          simp only [hoff, hj', hs', Bool.false_eq_true, if_false]
          rw [if_neg h50, if_neg (by omega), if_neg (by omega), if_neg hn'.1, if_neg hn'.2.1, if_neg hn'.2.2]
        have hfit := plain_fit (env := env) (k := k) (s := s) (clob := clob) hd hoff hno hio' hstd hlow hs' hw hlen hsn
          (fun w h0 hc => by rw [hnco h0] at hc; cases hc)
        rw [htake, hdrop, ← hres] at hfit
        exact hfit

/-- An instruction that ends the call. -/
theorem halt_fit (hd : p.insts[i]? = some d) (wf : Wf code (i, d)) (hh : Halts d) (hw : WorldX ai p.insts env)
    (hlen : d.stackIo.1 ≤ c.length) (hsnap : 0 < d.stackIo.1 → SnapAt ai i d.stackIo.1 c) :
    Fit (toT code ai (actOf code p env k s) clob (i, d)) c (c.drop d.stackIo.1)
      (observed env (k + (i - s)) i d c) := by
  have hno : d.flags.noop = false := wf.noop
  have hsn := snapAt_const hsnap hlen
  by_cases hoff : (d.flags.disabled || d.flags.unknown) = true
  · have hio : d.stackIo = (0, 0) := wf.off hoff
    have hlow : lowerOf code ai i d = .nop := by unfold lowerOf; simp only [hoff, if_true]
    have hi : (toT code ai (actOf code p env k s) clob (i, d)).inp = 0 := by show d.stackIo.1 = _; rw [hio]
    have ho : (toT code ai (actOf code p env k s) clob (i, d)).out = 0 := by show d.stackIo.2 = _; rw [hio]
    refine ⟨⟨hlen, ?_, hsn, ?_, ?_, ?_⟩, ?_, ?_⟩
    · rw [ho]; unfold pushed toT; dsimp only; rw [hlow]; rfl
    · intro v h; rw [ho] at h; omega
    · intro h
      change d.flags.noop = true at h
      rw [hno] at h; cases h
    · unfold toT; dsimp only; rw [hlow]; show d.stackIo.1 = 0; rw [hio]
    · unfold Spec.next pushed toT
      dsimp only
      rw [hlow]; rfl
    · unfold events toT observed
      dsimp only
      rw [hlow, if_pos hoff]
      split <;> rfl
  · have hoff : (d.flags.disabled || d.flags.unknown) = false := by simpa using hoff
    have hio := wf.io hoff
    simp only at hio
    have hstd := stdIo_of hio
    have hop : d.opcode.toNat ∈ [0x00, 0xf3, 0xfd, 0xfe, 0xff] := by
      unfold Halts at hh
      simp only [Bool.or_eq_false_iff] at hoff
      rcases hh with h | h | h
      · rw [hoff.1] at h; cases h
      · rw [hoff.2] at h; cases h
      · exact h
    simp only [List.mem_cons, List.not_mem_nil, or_false] at hop
    have hio' : d.stackIo = tableStackIo d.opcode :=
      hstd (by simp only [List.mem_cons, List.not_mem_nil, or_false, not_or]; omega)
    have ht : ∀ o : UInt8, (o.toNat = 0 ∨ o.toNat = 0xf3 ∨ o.toNat = 0xfd ∨ o.toNat = 0xfe ∨ o.toNat = 0xff) →
        (tableStackIo o).2 = 0 ∧ (o == op.JUMP) = false ∧ (o == op.JUMPI) = false ∧
        [op.CALL, op.CALLCODE, op.DELEGATECALL, op.STATICCALL, op.CREATE, op.CREATE2].contains o = false := by
      decide +kernel
    obtain ⟨t1, s3, s4, s5⟩ := ht _ hop
    have hlow : lowerOf code ai i d = lowerPlain d.opcode d.stackIo.1 (ai.constOperand i) := by
      have hj : d.isJump = false := by unfold InstData.isJump; rw [s3, s4]; rfl
      have hs : d.maySuspend = false := s5
      unfold lowerOf
      simp only [hoff, hj, hs, Bool.false_eq_true, if_false]
      rw [if_neg (by omega), if_neg (by omega), if_neg (by omega), if_neg (by omega), if_neg (by omega),
        if_neg (by omega)]
    have ho : d.stackIo.2 = 0 := by rw [hio', t1]
    have hfit := plain_fit (env := env) (k := k) (s := s) (clob := clob) hd hoff hno hio' hstd hlow s5 hw hlen hsn
      (fun w h0 hc => by omega)
    have hnil := actOf_len (code := code) (k := k) (s := s) (args := c.take d.stackIo.1) hw hd hstd
    rw [ho] at hnil
    rw [List.length_eq_zero_iff.1 hnil] at hfit
    exact hfit

end step

end Verif
