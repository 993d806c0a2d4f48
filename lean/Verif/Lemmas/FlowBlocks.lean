import Verif.Lemmas.FlowDead
import Verif.Lemmas.DedupSame
/-!
# Executions block by block
-/

namespace Verif
open Spec

/-! ## Where blocks start -/

theorem buildLoop_starts (lead : Nat → Bool) (insts : List InstData) (ds : List InstData) :
    ∀ (i : Nat) (cur : Option Nat) (e : Nat) (pend : Bool), ds = insts.drop i →
      (pend = true → 0 < i ∧ ¬ LiveAt insts (i - 1)) → (cur = none → i = 0 ∨ ¬ LiveAt insts (i - 1)) →
      (∀ s, cur = some s → s = 0 ∨ lead s = true ∨ ¬ LiveAt insts (s - 1)) →
      ∀ b ∈ buildLoop lead ds i cur e pend, b.1 = 0 ∨ lead b.1 = true ∨ ¬ LiveAt insts (b.1 - 1) := by
  induction ds with
  | nil =>
    intro i cur e pend _ _ _ h b hb
    cases cur with
    | none => simp [buildLoop] at hb
    | some s =>
      simp only [buildLoop, List.mem_singleton] at hb
      subst hb
      exact h s rfl
  | cons d ds ih =>
    intro i cur e pend hds hp hn hs b hb
    have hget : insts[i]? = some d := by
      have := congrArg (fun l => l[0]?) hds
      simp only [List.getElem?_cons_zero, List.getElem?_drop, Nat.add_zero] at this
      exact this.symm
    have hds' : ds = insts.drop (i + 1) := by
      have := congrArg List.tail hds
      rw [List.tail_cons, List.tail_drop] at this
      exact this
    rw [buildLoop_cons] at hb
    split at hb
    · rename_i hdead
      have hnl : ¬ LiveAt insts i := by
        rintro ⟨d', h1, h2⟩
        rw [hget] at h1; cases h1; rw [hdead] at h2; simp at h2
      exact ih (i + 1) cur e _ hds' (fun _ => ⟨by omega, by simpa using hnl⟩)
        (fun _ => .inr (by simpa using hnl)) hs b hb
    · split at hb
      · rename_i hc
        have hi : i = 0 ∨ lead i = true ∨ ¬ LiveAt insts (i - 1) := by
          simp only [Bool.or_eq_true, Option.isNone_iff_eq_none] at hc
          rcases hc with (h | h) | h
          · exact .inr (.inl h)
          · exact .inr (.inr (hp h).2)
          · rcases hn h with h | h
            · exact .inl h
            · exact .inr (.inr h)
        have hrec := ih (i + 1) (some i) (i + 1) false hds' (by simp) (by simp)
          (fun s h => by cases h; exact hi)
        cases cur with
        | none => exact hrec b hb
        | some s =>
          rcases List.mem_cons.1 hb with rfl | hb
          · exact hs s rfl
          · exact hrec b hb
      · rename_i hc
        simp only [Bool.or_eq_true, not_or, Option.isNone_iff_eq_none] at hc
        exact ih (i + 1) cur (i + 1) false hds' (by simp) (fun h => absurd h hc.2) hs b hb

theorem Prog.blocks_start (p : Prog) {b : Nat × Nat} (hb : b ∈ p.blocks) :
    b.1 = 0 ∨ p.isLeader b.1 = true ∨ ¬ LiveAt p.insts (b.1 - 1) :=
  buildLoop_starts p.isLeader p.insts p.insts 0 none 0 false (by simp) (by simp) (by simp) (by simp) b hb

/-- A live leader starts a block. -/
theorem Prog.leader_start (p : Prog) {i : Nat} (hl : LiveAt p.insts i) (h : p.isLeader i = true) :
    ∃ b ∈ p.blocks, b.1 = i := by
  obtain ⟨b, hb, h1, h2⟩ := p.blocks_ok.cover i (by omega) hl
  refine ⟨b, hb, ?_⟩
  rcases Nat.lt_or_ge b.1 i with hlt | hge
  · rw [p.blocks_ok.inside b hb i hlt h2] at h; simp at h
  · omega

/-! ## Straight-line execution inside a program -/

/-- Executing live instructions one after the other from `s` with stack `c0` to `i` with stack `c`. -/
inductive Along (code : Code) (p : Prog) (s : Nat) (c0 : List Word) : Nat → List Word → Prop
  | nil : Along code p s c0 s c0
  | snoc {i : Nat} {c c' : List Word} {d : InstData} : Along code p s c0 i c → p.insts[i]? = some d →
      d.flags.deadCode = false →
      d.stackIo = computeStackIo d.opcode (some [UInt8.ofNat (code.imm i).toNat]) →
      StackStep code.codeLen d.data d.opcode.toNat (code.imm i) d.stackIo.1 d.stackIo.2 c c' →
      Along code p s c0 (i + 1) c'

theorem Along.le {code : Code} {p : Prog} {s i : Nat} {c0 c : List Word} (h : Along code p s c0 i c) : s ≤ i := by
  induction h with
  | nil => exact Nat.le_refl _
  | snoc _ _ _ _ _ ih => omega

theorem slice_succ {p : Prog} {s n : Nat} {d : InstData} (h : p.insts[s + n]? = some d) :
    p.slice s (n + 1) = p.slice s n ++ [(s + n, d)] := by
  unfold Prog.slice
  rw [List.range'_concat, List.filterMap_append, Nat.one_mul]
  simp [h]

theorem slice_split {p : Prog} {s n k : Nat} {d : InstData} (h : p.insts[s + k]? = some d) (hk : k < n) :
    p.slice s n = p.slice s k ++ (s + k, d) :: p.slice (s + k + 1) (n - k - 1) := by
  unfold Prog.slice
  have e : List.range' s n = List.range' s k ++ (s + k) :: List.range' (s + k + 1) (n - k - 1) := by
    rw [← List.range'_succ, show n - k - 1 + 1 = n - k by omega]
    have := List.range'_append (s := s) (m := k) (n := n - k) (step := 1)
    rw [Nat.one_mul] at this
    rw [this, show k + (n - k) = n by omega]
  rw [e, List.filterMap_append, List.filterMap_cons, h]
  rfl

/-- The interpreter follows straight-line execution, if its stack is high enough. -/
theorem along_interp {code : Code} {limit : Nat} {p : Prog} {s i : Nat} {c0 c : List Word} {st : AIState}
    {a : List AbsValue} (hal : Along code p s c0 i c) (ha : AdmitsStack a c0)
    (need : ∀ j d cj, j < i → Along code p s c0 j cj → p.insts[j]? = some d → d.stackIo.1 ≤ cj.length →
      d.stackIo.1 + c0.length ≤ a.length + cj.length) :
    ∃ a1, (interpBlock code limit (p.slice s (i - s)) st a).1 = some a1 ∧ AdmitsStack a1 c ∧
      a1.length + c0.length = a.length + c.length := by
  induction hal with
  | nil =>
    rw [Nat.sub_self]
    exact ⟨a, rfl, ha, rfl⟩
  | @snoc i c c' d hal hd hl hio hs ih =>
    obtain ⟨a1, h1, h2, h3⟩ := ih fun j d cj hj => need j d cj (by omega)
    have hle := hal.le
    have hd' : p.insts[s + (i - s)]? = some d := by rw [show s + (i - s) = i by omega]; exact hd
    obtain ⟨l1, l2, _⟩ := step_len hio hs
    have hn := need i d c (by omega) hal hd l1
    obtain ⟨a2, g1, g2, g3⟩ := interpInst_follows (limit := limit) (st := (interpBlock code limit (p.slice s (i - s)) st a).2)
      hl hio hs h2 (by omega)
    rw [show i + 1 - s = (i - s) + 1 by omega, slice_succ hd', interpBlock_append h1,
      show s + (i - s) = i by omega]
    refine ⟨a2, ?_, g2, by omega⟩
    rw [interpBlock]
    simp only [g1, interpBlock]

/-- The recorded operands of an instruction of the block. -/
theorem along_inputs {code : Code} {limit : Nat} {p : Prog} {s n i : Nat} {c0 c : List Word} {st : AIState}
    {a : List AbsValue} {d : InstData} (hal : Along code p s c0 i c) (hi : i < s + n) (ha : AdmitsStack a c0)
    (need : ∀ j d cj, j ≤ i → Along code p s c0 j cj → p.insts[j]? = some d → d.stackIo.1 ≤ cj.length →
      d.stackIo.1 + c0.length ≤ a.length + cj.length)
    (hd : p.insts[i]? = some d) (hl : d.flags.deadCode = false) (hpos : 0 < d.stackIo.1)
    (hc : d.stackIo.1 ≤ c.length) :
    ∃ a1, (interpBlock code limit (p.slice s n) st a).2.inputs i = (a1.take d.stackIo.1).reverse ∧
      AdmitsStack a1 c ∧ d.stackIo.1 ≤ a1.length := by
  obtain ⟨a1, h1, h2, h3⟩ := along_interp (limit := limit) (st := st) hal ha fun j d cj hj => need j d cj (by omega)
  have hn := need i d c (Nat.le_refl _) hal hd hc
  have hle := hal.le
  have hd' : p.insts[s + (i - s)]? = some d := by rw [show s + (i - s) = i by omega]; exact hd
  refine ⟨a1, ?_, h2, by omega⟩
  rw [slice_split hd' (by omega), interpBlock_append h1, show s + (i - s) = i by omega]
  have hother : ∀ x ∈ p.slice (i + 1) (n - (i - s) - 1), x.1 ≠ i := by
    intro x hx
    have := (mem_slice hx).2.1
    omega
  have hrec := (interpInst_rec (code := code) (limit := limit) (i := i)
    (st := (interpBlock code limit (p.slice s (i - s)) st a).2) (s := a1) hl).1
  rw [if_pos hpos] at hrec
  rw [interpBlock]
  split
  · exact hrec
  · rw [(interpBlock_other hother).1, hrec]

/-- The recorded output of an instruction of the block. -/
theorem along_outputs {code : Code} {limit : Nat} {p : Prog} {s n i : Nat} {c0 c c' : List Word} {st : AIState}
    {a : List AbsValue} {d : InstData} (hal : Along code p s c0 i c) (hi : i < s + n) (ha : AdmitsStack a c0)
    (need : ∀ j d cj, j ≤ i → Along code p s c0 j cj → p.insts[j]? = some d → d.stackIo.1 ≤ cj.length →
      d.stackIo.1 + c0.length ≤ a.length + cj.length)
    (hd : p.insts[i]? = some d) (hl : d.flags.deadCode = false)
    (hio : d.stackIo = computeStackIo d.opcode (some [UInt8.ofNat (code.imm i).toNat]))
    (hs : StackStep code.codeLen d.data d.opcode.toNat (code.imm i) d.stackIo.1 d.stackIo.2 c c')
    (hout : 0 < d.stackIo.2) (hsw : isSwapLike d.opcode = false) :
    ∃ a2, (interpBlock code limit (p.slice s n) st a).2.outputs i = a2.head? ∧ AdmitsStack a2 c' := by
  obtain ⟨a1, h1, h2, h3⟩ := along_interp (limit := limit) (st := st) hal ha fun j d cj hj => need j d cj (by omega)
  have hn := need i d c (Nat.le_refl _) hal hd (step_len hio hs).1
  have hle := hal.le
  have hd' : p.insts[s + (i - s)]? = some d := by rw [show s + (i - s) = i by omega]; exact hd
  obtain ⟨a2, g1, g2, g3⟩ := interpInst_follows (limit := limit) (st := (interpBlock code limit (p.slice s (i - s)) st a).2)
      hl hio hs h2 (by omega)
  refine ⟨a2, ?_, g2⟩
  rw [slice_split hd' (by omega), interpBlock_append h1, show s + (i - s) = i by omega]
  have hother : ∀ x ∈ p.slice (i + 1) (n - (i - s) - 1), x.1 ≠ i := by
    intro x hx
    have := (mem_slice hx).2.1
    omega
  have hrec := (interpInst_rec (code := code) (limit := limit) (i := i)
    (st := (interpBlock code limit (p.slice s (i - s)) st a).2) (s := a1) hl).2 a2 g1 hout hsw
  rw [interpBlock]
  simp only [g1]
  rw [(interpBlock_other hother).2, hrec]

/-! ## Steps as stack effects -/

theorem jump_io {d : InstData} {code : Code} {i : Nat}
    (hio : d.stackIo = computeStackIo d.opcode (some [UInt8.ofNat (code.imm i).toNat])) :
    (d.opcode = op.JUMP → d.stackIo = (1, 0)) ∧ (d.opcode = op.JUMPI → d.stackIo = (2, 0)) := by
  unfold computeStackIo at hio
  refine ⟨fun h => ?_, fun h => ?_⟩
  · rw [h, if_neg (by decide), if_neg (by decide), if_neg (by decide)] at hio
    rw [hio]; decide
  · rw [h, if_neg (by decide), if_neg (by decide), if_neg (by decide)] at hio
    rw [hio]; decide

theorem EvolvesInst.ioOk {code : Code} {i : Nat} {d d' : InstData} (h : EvolvesInst d d') (hio : IoOk code i d) :
    IoOk code i d' := by
  unfold IoOk at *
  rw [h.dis, h.unk, h.io, h.op]
  exact hio

theorem evalOp_jump (n pc : Nat) (args : List Word) (o : Nat) (h : o = 0x56 ∨ o = 0x57) :
    evalOp n pc o args = none := by
  cases hv : evalOp n pc o args with
  | none => rfl
  | some w =>
    have := evalOp_table (o := UInt8.ofNat o) (by rcases h with rfl | rfl <;> exact hv)
    exfalso
    have h2 : (tableStackIo (UInt8.ofNat o)).2 = 1 := congrArg Prod.snd this.1
    rcases h with rfl | rfl
    · exact absurd h2 (by decide)
    · exact absurd h2 (by decide)

/-- A step has the stack effect of its instruction, in the parsed and in the analyzed program. -/
theorem step_effect {code : Code} {base : List InstData} {p : Prog} (wf : FlowWf code base)
    (hev : Evolves base p.insts) {i i' : Nat} {c c' : List Word} (hs : Step code base i c i' c') {d : InstData}
    (hd : p.insts[i]? = some d) : ¬ Halts d ∧
      d.stackIo = computeStackIo d.opcode (some [UInt8.ofNat (code.imm i).toNat]) ∧
      StackStep code.codeLen d.data d.opcode.toNat (code.imm i) d.stackIo.1 d.stackIo.2 c c' := by
  obtain ⟨d0, hd0, he⟩ := hev.back hd
  have hh : ¬ Halts d0 := by
    cases hs with
    | seq hb hh => rw [hd0] at hb; cases hb; exact hh
    | jump hb hh => rw [hd0] at hb; cases hb; exact hh
    | taken hb hh => rw [hd0] at hb; cases hb; exact hh
    | fall hb hh => rw [hd0] at hb; cases hb; exact hh
  have hio0 := wf.io i d0 hd0 (not_halts_off hh)
  have hio : d.stackIo = computeStackIo d.opcode (some [UInt8.ofNat (code.imm i).toNat]) := by
    rw [he.io, he.op]; exact hio0
  refine ⟨fun h => hh (he.halts.1 h), hio, ?_⟩
  rw [he.op, he.io]
  cases hs with
  | seq hb _ h1 h2 hs =>
    rw [hd0] at hb; cases hb
    have hj : d0.isJump = false := by
      apply Bool.eq_false_iff.2
      intro h
      unfold InstData.isJump at h
      simp only [Bool.or_eq_true, beq_iff_eq] at h
      rcases h with h | h
      · exact h1 (by rw [h]; rfl)
      · exact h2 (by rw [h]; rfl)
    rw [he.data hj]
    exact hs
  | @jump d1 w r t hb _ h1 _ =>
    rw [hd0] at hb; cases hb
    have ho : d0.opcode = op.JUMP := toNat_eq (k := 0x56) (by omega) h1
    rw [(jump_io hio0).1 ho, h1]
    exact .other [w] [] _ (by omega) (by decide) rfl rfl (evalOp_jump _ _ _ _ (.inl rfl))
  | @taken d1 w b r t hb _ h1 _ _ =>
    rw [hd0] at hb; cases hb
    have ho : d0.opcode = op.JUMPI := toNat_eq (k := 0x57) (by omega) h1
    rw [(jump_io hio0).2 ho, h1]
    exact .other [w, b] [] _ (by omega) (by decide) rfl rfl (evalOp_jump _ _ _ _ (.inr rfl))
  | @fall d1 w r hb _ h1 =>
    rw [hd0] at hb; cases hb
    have ho : d0.opcode = op.JUMPI := toNat_eq (k := 0x57) (by omega) h1
    rw [(jump_io hio0).2 ho, h1]
    exact .other [w, 0] [] _ (by omega) (by decide) rfl rfl (evalOp_jump _ _ _ _ (.inr rfl))

/-! ## From block starts -/

theorem live_not_leader {p : Prog} {i : Nat} {d : InstData} (hd : p.insts[i]? = some d)
    (hl : d.flags.deadCode = false) (hj : d.isJump = true) : p.isLeader (i + 1) = true := by
  unfold Prog.isLeader
  rw [Nat.add_sub_cancel, hd]
  simp [hl, InstData.isBranching, hj]

theorem reachable_leader {p : Prog} {i : Nat} {d : InstData} (hd : p.insts[i]? = some d)
    (h : d.isReachableJumpdest p.hasDyn = true) : p.isLeader i = true := by
  unfold Prog.isLeader
  rw [hd]
  simp [h]

/-- Every visited instruction was reached by straight-line execution from the start of its block. -/
theorem reach_blocks {code : Code} {base : List InstData} {ok : Nat → List Word → Prop} {p : Prog}
    (wf : FlowWf code base) (h : Sound code base ok p) (hf : Flagged p) {i : Nat} {c : List Word}
    (hr : Reach code base ok i c) : ∃ b ∈ p.blocks, ∃ c0, b.1 ≤ i ∧ i < b.2 ∧ Reach code base ok b.1 c0 ∧
      Along code p b.1 c0 i c := by
  have start : ∀ i c, Reach code base ok i c → p.isLeader i = true → ∃ b ∈ p.blocks, ∃ c0, b.1 ≤ i ∧ i < b.2 ∧
      Reach code base ok b.1 c0 ∧ Along code p b.1 c0 i c := by
    intro i c hr hlead
    obtain ⟨b, hb, rfl⟩ := p.leader_start (h.live i c hr) hlead
    exact ⟨b, hb, c, Nat.le_refl _, (p.blocks_ok.range b hb).2.1, hr, .nil⟩
  induction hr with
  | start hok => exact start 0 [] (.start hok) (by simp [Prog.isLeader])
  | @step i i' c c' hr hs hok ih =>
    obtain ⟨d, hd, hl⟩ := h.live i c hr
    have hr' : Reach code base ok i' c' := .step hr hs hok
    obtain ⟨_, hio, heff⟩ := step_effect wf h.ev hs hd
    cases leaves_of_step wf h hf hr hs hd with
    | jumps dt _ h1 h2 => exact start i' c' hr' (reachable_leader h1 h2)
    | next h1 h2 _ _ _ _ =>
      subst h1
      refine start _ _ hr' (live_not_leader hd hl ?_)
      unfold InstData.isStaticJump at h2
      rw [Bool.and_eq_true] at h2
      exact h2.1
    | falls h1 h2 =>
      subst h1
      obtain ⟨b, hb, c0, q1, q2, q3, q4⟩ := ih
      rcases Nat.lt_or_ge (i + 1) b.2 with hlt | hge
      · exact ⟨b, hb, c0, by omega, hlt, q3, .snoc q4 hd hl hio heff⟩
      · obtain ⟨b', hb', r1, r2⟩ := p.blocks_ok.cover (i + 1) (by omega) (h.live _ _ hr')
        have : b'.1 = i + 1 := by
          rcases Nat.lt_or_ge b'.1 (i + 1) with hx | hx
          · exfalso
            obtain ⟨k, hk, rfl⟩ := List.getElem_of_mem hb
            obtain ⟨k', hk', rfl⟩ := List.getElem_of_mem hb'
            rcases Nat.lt_trichotomy k k' with h1 | h1 | h1
            · have := p.blocks_lt (List.getElem?_eq_getElem hk) (List.getElem?_eq_getElem hk') h1; omega
            · subst h1; omega
            · have := p.blocks_lt (List.getElem?_eq_getElem hk') (List.getElem?_eq_getElem hk) h1; omega
          · omega
        refine ⟨b', hb', c', by omega, r2, this ▸ hr', ?_⟩
        rw [this]
        exact .nil

/-- At a block start the stack has at most 64 words, when executions are shallow. -/
theorem start_shallow {code : Code} {base : List InstData} {ok : Nat → List Word → Prop} {p : Prog}
    (wf : FlowWf code base) (h : Sound code base ok p) (hf : Flagged p)
    (hok : ∀ i c, ok i c → shallow base i c) {b : Nat × Nat} (hb : b ∈ p.blocks) {c : List Word}
    (hr : Reach code base ok b.1 c) : c.length ≤ 64 := by
  have hst := p.blocks_start hb
  revert hst
  generalize b.1 = i at hr
  intro hst
  cases hr with
  | start _ => simp
  | @step i0 _ c0 _ hr hs hk =>
    have hsh := hok i c hk
    obtain ⟨d, hd, hl⟩ := h.live i0 c0 hr
    have back : ∀ (j : Nat) (e : InstData), p.insts[j]? = some e → ∃ b, base[j]? = some b ∧ b.opcode = e.opcode := by
      intro j e he
      obtain ⟨b, hb, hev⟩ := h.ev.back he
      exact ⟨b, hb, hev.op.symm⟩
    have atdest : ∀ e, p.insts[i]? = some e → e.isReachableJumpdest p.hasDyn = true → c.length ≤ 64 := by
      intro e he hre
      obtain ⟨b, hb, ho⟩ := back i e he
      refine hsh (.inl ⟨b, hb, ?_⟩)
      unfold InstData.isReachableJumpdest InstData.isJumpdest at hre
      simp only [Bool.and_eq_true, beq_iff_eq] at hre
      rw [ho, hre.1]; rfl
    have after : ∀ e, 0 < i → p.insts[i - 1]? = some e → e.opcode = op.JUMPI → c.length ≤ 64 := by
      intro e hi he ho'
      obtain ⟨b, hb, ho⟩ := back _ e he
      exact hsh (.inr ⟨hi, b, hb, by rw [ho, ho']; rfl⟩)
    cases leaves_of_step wf h hf hr hs hd with
    | jumps dt _ h1 h2 => exact atdest dt h1 h2
    | next h1 _ _ _ _ ho => subst h1; exact after d (by omega) hd ho
    | falls h1 h2 =>
      subst h1
      rcases hst with hst | hst | hst
      · omega
      · unfold Prog.isLeader at hst
        simp only [Bool.or_eq_true, Bool.and_eq_true, beq_iff_eq, Nat.add_sub_cancel] at hst
        rcases hst with (hst | hst) | hst
        · omega
        · obtain ⟨e, he, hre⟩ := (Option.any_eq_true _ _).1 hst
          exact atdest e he hre
        · obtain ⟨e, he, hre⟩ := (Option.any_eq_true _ _).1 hst.2
          rw [hd] at he; cases he
          unfold InstData.canFallThrough at h2
          simp only [Bool.and_eq_true, Bool.not_eq_true', bne_iff_ne] at h2
          unfold InstData.isBranching at hre
          rw [h2.1.1] at hre
          simp only [Bool.or_false, Bool.and_eq_true] at hre
          have hj := hre.2
          unfold InstData.isJump at hj
          simp only [Bool.or_eq_true, beq_iff_eq] at hj
          rcases hj with hj | hj
          · exact absurd hj h2.1.2
          · exact after d (by omega) hd hj
      · exact absurd ⟨d, hd, hl⟩ hst

end Verif
