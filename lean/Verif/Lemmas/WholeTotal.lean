import Verif.Lemmas.SteadyOf
import Verif.Lemmas.WholeMemCode
import Verif.Props.Dse
/-!
# Compilation completes
-/

namespace Verif
open Spec

/-- Every live PUSH has its value recorded. -/
def Known (code : Code) (insts : List InstData) (st : AIState) : Prop :=
  ∀ (i : Nat) d, insts[i]? = some d → d.flags.deadCode = false → 0x5f ≤ d.opcode.toNat ∧ d.opcode.toNat ≤ 0x7f →
    (d.flags.disabled || d.flags.unknown) = false → st.outputs i = some (.const (code.imm i))

/-- The stack needs of all stretches of the program fit the types of the section analysis. -/
def Spans (base : List InstData) : Prop := ∀ a n, -65535 ≤ lowest (((base.drop a).take n).map (·.stackIo)) 0 ∧
  highest (((base.drop a).take n).map (·.stackIo)) 0 ≤ 32767

theorem Spans.acc {base : List InstData} (h : Spans base) {p : Prog} (hev : Evolves base p.insts) {b : Nat × Nat}
    (hb : b ∈ p.blocks) :
    (blockAcc (p.blockInsts b)).inputs ≤ 65535 ∧ (blockAcc (p.blockInsts b)).maxGrowth ≤ 32767 := by
  have hr := p.blocks_ok.range b hb
  have hs := slice_io hev b.1 (b.2 - b.1) (by omega)
  obtain ⟨h1, h2⟩ := h b.1 (b.2 - b.1)
  rw [← hs] at h1 h2
  unfold blockAcc Prog.blockInsts
  rw [acc_highest _ {} (by decide)]
  have h3 := acc_lowest (p.slice b.1 (b.2 - b.1)) {}
  constructor
  · rcases h3 with h3 | h3
    · rw [h3]
      show max 0 (-(lowest _ 0)) ≤ _
      omega
    · rw [h3]
      show (0 : Int) ≤ _
      omega
  · show max 0 (highest _ 0) ≤ _
    omega

theorem decodable_of {code : Code} {i : Nat} {d : InstData} (h : badImm code (i, d) = false)
    (hon : (d.flags.disabled || d.flags.unknown) = false) : Decodable code (i, d) := by
  unfold badImm at h
  rw [hon] at h
  unfold decodeImm at h
  constructor
  · intro ho hn
    dsimp only at ho hn h
    rcases ho with ho | ho <;> · rw [ho, hn] at h; simp [op.DUPN, op.SWAPN, op.EXCHANGE] at h
  · intro ho hn
    dsimp only at ho hn h
    rw [ho, hn] at h
    simp [op.DUPN, op.SWAPN, op.EXCHANGE] at h

theorem dropLast_index {α : Type} {l : List α} {x : α} (h : x ∈ l.dropLast) : ∃ k, k + 1 < l.length ∧ l[k]? = some x := by
  obtain ⟨k, hk, he⟩ := List.mem_iff_getElem.1 h
  rw [List.length_dropLast] at hk
  refine ⟨k, by omega, ?_⟩
  rw [List.getElem_dropLast] at he
  rw [List.getElem?_eq_getElem (by omega), he]

/-- Interpreting a block with nothing known about its entry records the values of its PUSHes. -/
theorem block_known {code : Code} {limit : Nat} {base : List InstData} {p : Prog} (ha : Anch p)
    (hev : Evolves base p.insts) (hinst : ∀ (i : Nat) d, base[i]? = some d → Wf code (i, d))
    (hbad : ∀ (i : Nat) d, base[i]? = some d → badImm code (i, d) = false) (hsp : Spans base)
    {b : Nat × Nat} (hb : b ∈ p.blocks) (st : AIState) {i : Nat} {d : InstData} (h1 : b.1 ≤ i) (h2 : i < b.2)
    (hd : p.insts[i]? = some d) (hpush : 0x5f ≤ d.opcode.toNat ∧ d.opcode.toNat ≤ 0x7f)
    (hon : (d.flags.disabled || d.flags.unknown) = false) :
    (interpBlock code limit (p.blockInsts b) st (localEntry p b)).2.outputs i = some (.const (code.imm i)) := by
  obtain ⟨hI, hG⟩ := hsp.acc hev hb
  obtain ⟨hl, hat⟩ := blockInsts_at hb
  have hwf : ∀ x ∈ p.blockInsts b, Wf code x := fun x hx => by
    obtain ⟨g1, _⟩ := mem_slice hx
    obtain ⟨d0, g2, g3⟩ := hev.back g1
    exact g3.wf (hinst _ _ g2)
  have hlive : ∀ x ∈ p.blockInsts b, x.2.flags.deadCode = false := fun x hx => by
    obtain ⟨g1, g2, g3⟩ := mem_slice hx
    obtain ⟨e, g4, g5⟩ := ha.block_live hb g2 (by omega)
    rw [g1] at g4; cases g4
    exact g5
  have hen : ∀ x ∈ (p.blockInsts b).dropLast, (x.2.flags.disabled || x.2.flags.unknown) = false ∧ Decodable code x := by
    intro x hx
    obtain ⟨k, hk, hx⟩ := dropLast_index hx
    rw [hl] at hk
    obtain ⟨e, g1, g2⟩ := hat k (by omega)
    rw [hx] at g2
    cases Option.some.inj g2
    have hbr := ha.inner_fall hb (by omega) (by omega) g1
    unfold InstData.isBranching at hbr
    rw [Bool.or_eq_false_iff] at hbr
    have hdiv := hbr.2
    unfold InstData.isDiverging at hdiv
    simp only [Bool.or_eq_false_iff] at hdiv
    have hon : (e.flags.disabled || e.flags.unknown) = false := by rw [hdiv.1.1.2, hdiv.1.2]; rfl
    refine ⟨hon, ?_⟩
    obtain ⟨e0, g3, g4⟩ := hev.back g1
    have := decodable_of (hbad _ _ g3) (by rw [← g4.dis, ← g4.unk]; exact hon)
    unfold Decodable at this ⊢
    dsimp only at this ⊢
    rw [g4.op]
    exact this
  have hmem : (i, d) ∈ p.blockInsts b := by
    obtain ⟨e, g1, g2⟩ := hat (i - b.1) (by omega)
    rw [show b.1 + (i - b.1) = i by omega] at g1 g2
    rw [hd] at g1; cases g1
    exact List.mem_of_getElem? g2
  have hwin : Window (p.blockInsts b) {} (blockAcc (p.blockInsts b)).inputs (blockAcc (p.blockInsts b)).maxGrowth :=
    ⟨Int.le_refl _, Int.le_refl _⟩
  have hm := window_mono (p.blockInsts b) {}
  have hpos : 0 ≤ (blockAcc (p.blockInsts b)).inputs := hm.1
  obtain ⟨hh, _⟩ := heights_of hwin (by simp only; omega)
    (by have := hm.2; simp only at this; simp only [blockAcc] at *; omega) (by omega)
  rw [show ({} : StackAcc).diff = 0 from rfl, Int.add_zero] at hh
  have hsec : sectionInputs (p.blockInsts b) = (blockAcc (p.blockInsts b)).inputs.toNat := by
    unfold sectionInputs StackAcc.section
    exact if_pos ⟨hpos, hI⟩
  exact (interpBlock_full (limit := limit) (p.blockInsts b) (st := st) (s := localEntry p b) hwf hlive
    (slice_nodup p _ _) hen hh (by unfold localEntry; rw [List.length_replicate, hsec]; omega)).2 (i, d) hmem hpush.1
    hpush.2 hon

/-- The local pass records the values of all live PUSHes. -/
theorem local_known {code : Code} {limit : Nat} {base : List InstData} {p : Prog} (ha : Anch p)
    (hev : Evolves base p.insts) (hinst : ∀ (i : Nat) d, base[i]? = some d → Wf code (i, d))
    (hbad : ∀ (i : Nat) d, base[i]? = some d → badImm code (i, d) = false) (hsp : Spans base) :
    Known code p.insts (blockAnalysisLocal code limit p {}).2 := by
  intro i d hd hl hpush hon
  obtain ⟨b, hb, h1, h2⟩ := p.blocks_ok.cover i (Nat.zero_le _) ⟨d, hd, hl⟩
  have hkeep : ∀ (bs : List (Nat × Nat)) (acc : AIState × List (Nat × JumpRes)),
      acc.1.outputs i = some (.const (code.imm i)) →
      (bs.foldl (fun acc b => localBlock code limit p b acc) acc).1.outputs i = some (.const (code.imm i)) := by
    intro bs
    induction bs with
    | nil => intro acc h; exact h
    | cons c bs ih =>
      intro acc h
      rw [List.foldl_cons]
      apply ih
      rw [localBlock_fst]
      refine interpBlock_keep (fun q hq e => ?_) h
      obtain ⟨g1, _⟩ := mem_slice hq
      rw [e, hd] at g1
      cases Option.some.inj g1
      exact hpush
  have : ∀ (bs : List (Nat × Nat)) (acc : AIState × List (Nat × JumpRes)), b ∈ bs →
      (bs.foldl (fun acc b => localBlock code limit p b acc) acc).1.outputs i = some (.const (code.imm i)) := by
    intro bs
    induction bs with
    | nil => intro acc h; simp at h
    | cons c bs ih =>
      intro acc h
      rw [List.foldl_cons]
      rcases List.mem_cons.1 h with rfl | h
      · apply hkeep
        rw [localBlock_fst]
        exact block_known ha hev hinst hbad hsp hb _ h1 h2 hd hpush hon
      · exact ih _ h
  exact this _ _ hb

/-- Further interpretation keeps them. -/
theorem known_interp {code : Code} {limit : Nat} {p q : Prog} (hev : Evolves p.insts q.insts) {st : AIState}
    (h : Known code p.insts st) (c : Nat × Nat) (A : List AbsValue) :
    Known code p.insts (interpBlock code limit (q.blockInsts c) st A).2 := by
  intro i d hd hl hpush hon
  refine interpBlock_keep (fun x hx e => ?_) (h i d hd hl hpush hon)
  obtain ⟨g1, _⟩ := mem_slice hx
  obtain ⟨d0, g2, g3⟩ := hev.back g1
  rw [e, hd] at g2
  cases Option.some.inj g2
  rw [g3.op]
  exact hpush

theorem known_restore {code : Code} {insts : List InstData} {st loc : AIState} {q : Nat → Bool}
    (h : Known code insts st) (hl : Known code insts loc) : Known code insts (restore st loc q) := by
  intro i d hd h1 h2 h3
  unfold restore
  dsimp only
  split
  · exact hl i d hd h1 h2 h3
  · exact h i d hd h1 h2 h3

theorem known_global {code : Code} {limit : Nat} {p q : Prog} (hev : Evolves p.insts q.insts) {loc : AIState}
    (h : Known code p.insts loc) : Known code p.insts (blockAnalysis code limit q loc loc).2 := by
  unfold blockAnalysis runAbstractInterp
  dsimp only
  have h1 : Known code p.insts (runFixpoint code limit q q.blocks loc).1.ai := by
    unfold runFixpoint
    exact fixLoop_keeps (P := Known code p.insts) (fun c _ st A h => known_interp hev h c A) _ _ h
  have h2 : Known code p.insts (if (runFixpoint code limit q q.blocks loc).2 = true then
      (runFixpoint code limit q q.blocks loc).1.ai
      else restore (runFixpoint code limit q q.blocks loc).1.ai loc fun _ => true) := by
    split
    · exact h1
    · exact known_restore h1 h
  revert h2
  generalize (if (runFixpoint code limit q q.blocks loc).2 = true then
      (runFixpoint code limit q q.blocks loc).1.ai
      else restore (runFixpoint code limit q q.blocks loc).1.ai loc fun _ => true) = st1
  intro h2
  split
  · exact known_restore h2 h
  · exact h2

theorem Known.later {code : Code} {l l' : List InstData} {st : AIState} (h : Known code l st) (hev : Evolves l l') :
    Known code l' st := by
  intro i d' hd' h1 h2 h3
  obtain ⟨d, hd, he⟩ := hev.back hd'
  exact h i d hd (he.live h1) (by rw [← he.op]; exact h2) (by rw [← he.dis, ← he.unk]; exact h3)

/-- The analyses record the values of all live PUSHes. -/
theorem analyze_known {code : Code} {limit : Nat} {p : Prog} (S : Shut p)
    (hinst : ∀ (i : Nat) d, p.insts[i]? = some d → Wf code (i, d))
    (hbad : ∀ (i : Nat) d, p.insts[i]? = some d → badImm code (i, d) = false) (hsp : Spans p.insts) :
    Known code p.refresh.insts (blockAnalysisLocal code limit p.refresh {}).2 ∧
      Known code p.refresh.insts (analyzeFlow code limit p).2 := by
  obtain ⟨_, _, A1⟩ := refresh_shut S
  have h1 := local_known (limit := limit) A1 (evolves_refresh p) hinst hbad hsp
  refine ⟨h1, ?_⟩
  rw [analyzeFlow_snd]
  exact known_global ((evolves_local _ limit _ {}).trans (evolves_refresh _)) h1

/-- The blocks of a program whose PUSHes are known compile. -/
theorem compileBlocks_some {code : Code} {base : List InstData} {p : Prog} {ai : AIState} (o : WOpts) (ha : Anch p)
    (hev : Evolves base p.insts) (hinst : ∀ (i : Nat) d, base[i]? = some d → Wf code (i, d)) (hsp : Spans base)
    (hk : Known code p.insts ai) : ∃ bs, compileBlocks o code p ai p.blocks = some bs := by
  refine compileBlocks_each fun b hb => ?_
  have hwf : ∀ x ∈ p.blockInsts b, Wf code x := fun x hx => by
    obtain ⟨g1, _⟩ := mem_slice hx
    obtain ⟨d0, g2, g3⟩ := hev.back g1
    exact g3.wf (hinst _ _ g2)
  obtain ⟨hI, hG⟩ := hsp.acc hev hb
  obtain ⟨l, hl⟩ : ∃ l, (if o.dse then dseBlock o.inspect code ai (p.blockInsts b) else some (p.blockInsts b)) = some l := by
    split
    · exact block_some o.inspect hwf hI hG
    · exact ⟨_, rfl⟩
  have hm := dse_marks (fun x hx => (hwf x hx).noop) hl
  refine ⟨{ start := b.1, stop := b.2, insts := l }, ?_⟩
  unfold compileBlock
  rw [hl, Option.bind_some, if_pos]
  rw [List.all_eq_true]
  intro x hx
  obtain ⟨j, hj⟩ := List.getElem?_of_mem hx
  obtain ⟨y, m, hy, rfl, _⟩ := hm.at_ j x hj
  have hyl := List.mem_of_getElem? hy
  obtain ⟨g1, g2, g3⟩ := mem_slice hyl
  obtain ⟨e, g4, g5⟩ := ha.block_live hb g2 (by omega)
  rw [g1] at g4
  have g4 := Option.some.inj g4
  subst g4
  cases m with
  | true => rfl
  | false =>
  show pushTranslates ai y = true
  unfold pushTranslates
  cases h1 : (y.2.flags.disabled || y.2.flags.unknown) with
  | true =>
    rw [Bool.or_eq_true] at h1
    rcases h1 with h1 | h1 <;> rw [h1] <;> simp
  | false =>
    by_cases h2 : 0x5f ≤ y.2.opcode.toNat ∧ y.2.opcode.toNat ≤ 0x7f
    · have := hk _ _ g1 g5 h2 h1
      unfold AIState.constOutput
      rw [this]
      simp [AbsValue.asConst]
    · have : (decide (0x5f ≤ y.2.opcode.toNat) && decide (y.2.opcode.toNat ≤ 0x7f)) = false := by
        cases hq : decide (0x5f ≤ y.2.opcode.toNat) && decide (y.2.opcode.toNat ≤ 0x7f) with
        | false => rfl
        | true =>
          simp only [Bool.and_eq_true, decide_eq_true_eq] at hq
          exact absurd hq h2
      rw [this]
      simp

/-! ## Deduplication ends -/

theorem nodup_length {α : Type} [DecidableEq α] : ∀ {a b : List α}, a.Nodup → (∀ x ∈ a, x ∈ b) → a.length ≤ b.length
  | [], _, _, _ => Nat.zero_le _
  | x :: a, b, hn, hs => by
    rw [List.nodup_cons] at hn
    have := nodup_length (b := b.erase x) hn.2 fun y hy =>
      (List.mem_erase_of_ne (fun e : y = x => hn.1 (by rw [← e]; exact hy))).2 (hs y (List.mem_cons_of_mem _ hy))
    have hx := hs x (by simp)
    rw [List.length_erase_of_mem hx] at this
    have : 0 < b.length := List.length_pos_of_mem hx
    simp only [List.length_cons]
    omega

theorem blocks_nodup (p : Prog) : p.blocks.Nodup := by
  have h := p.blocks_ok.sorted
  have hr := p.blocks_ok.range
  refine h.imp_of_mem (fun {a b} ha hb hab e => ?_)
  subst e
  have := hr a ha
  omega

/-- Every round but the last removes a block. -/
theorem dedup_ends {loc : AIState} (fuel : Nat) : ∀ (s : DState), Steady s → s.prog.blocks.length < fuel →
    ∃ s', DState.dedup loc fuel s = some s' := by
  induction fuel with
  | zero => intro s _ h; omega
  | succ n ih =>
    intro s H hlt
    obtain ⟨s1, k, h1, _, _, h4⟩ := once_some (loc := loc) (s := s) fun i d hd hl hm => (H.multi i d hd hl hm).2.2.1
    rw [DState.dedup, h1]
    cases k with
    | zero => exact ⟨s1, rfl⟩
    | succ k =>
      obtain ⟨s2, g1, _⟩ := refresh_some (once_earlier h1 H.earlier)
      dsimp only
      rw [g1, Option.bind_some]
      obtain ⟨m, R, hc1, hc2, _⟩ := round_of H h1 g1
      have hne : roundMerges s ≠ [] := fun he => by
        have hp := once_prog h1
        rw [he] at hp
        have hp : s1.prog = s.prog := (Option.some.inj hp).symm
        have := h4 (Nat.succ_pos k)
        rw [hp] at this
        exact absurd this (Nat.lt_irrefl _)
      obtain ⟨x, hx⟩ := List.exists_mem_of_ne_nil _ hne
      refine ih s2 (once_steady H h1 g1) ?_
      have hx1 := (mergeOk hx).dupIn
      have : s2.prog.blocks.length ≤ (s.prog.blocks.erase x.dup).length := nodup_length (blocks_nodup _) fun y hy => by
        obtain ⟨y1, y2⟩ := (R.blocks H).1 hy
        exact (List.mem_erase_of_ne (y2 x hx)).2 y1
      rw [List.length_erase_of_mem hx1] at this
      have : 0 < s.prog.blocks.length := List.length_pos_of_mem hx1
      omega

theorem dedupProg_some {loc : AIState} {r : Prog × AIState} (H : Steady { prog := r.1, ai := r.2 }) :
    ∃ c, dedupProg loc r = some c := by
  obtain ⟨s', h⟩ := dedup_ends (loc := loc) (r.1.blocks.length + 1) _ H (Nat.lt_succ_self _)
  obtain ⟨b, hr, ho⟩ := dedup_rounds _ h
  obtain ⟨c, hc, _⟩ := refresh_some (once_earlier ho (rounds_steady H hr).earlier)
  refine ⟨c, ?_⟩
  unfold dedupProg
  rw [h, Option.bind_some, hc]

end Verif
