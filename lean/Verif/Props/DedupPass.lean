import Verif.Lemmas.DedupSim
/-!
# C17 and C18 for the deduplication pass as a whole
-/

namespace Verif
open Spec

theorem once_zero_prog {loc : AIState} {s s' : DState} (h : s.once loc = some (s', 0)) :
    s'.prog = s.prog := by
  have hp := once_prog h
  unfold DState.once at h
  dsimp only at h
  obtain ⟨s1, h1, h2⟩ := Option.map_eq_some_iff.1 h
  have hz : (((s.groups s.prog.blocks).map (·.2)).map (·.length - 1)).sum = 0 := congrArg Prod.snd h2
  have : roundMerges s = [] := by
    unfold roundMerges
    rw [List.flatMap_eq_nil_iff]
    intro g hg
    have : g.length - 1 = 0 := by
      have h0 := List.sum_eq_zero_iff_forall_eq_nat.1 hz
      exact h0 _ (List.mem_map.2 ⟨g, hg, rfl⟩)
    match g, this with
    | [], _ => rfl
    | [_], _ => rfl
    | _ :: _ :: _, h => simp at h
  rw [this] at hp
  exact (Option.some.inj hp).symm

/-- The pass is some rounds, the last of which merges nothing. -/
theorem dedup_rounds {loc : AIState} (fuel : Nat) : ∀ {s s' : DState}, DState.dedup loc fuel s = some s' →
    ∃ b, Rounds loc s b ∧ b.once loc = some (s', 0) := by
  suffices hgen : ∀ (fuel : Nat) (s a s' : DState), Rounds loc s a → DState.dedup loc fuel a = some s' →
      ∃ b, Rounds loc s b ∧ b.once loc = some (s', 0) from fun {_ _} h => hgen fuel _ _ _ .start h
  intro fuel
  induction fuel with
  | zero => intro s a s' _ h; simp [DState.dedup] at h
  | succ n ih =>
    intro s a s' ha h
    rw [DState.dedup] at h
    cases ho : a.once loc with
    | none => rw [ho] at h; simp at h
    | some r =>
      obtain ⟨b, k⟩ := r
      rw [ho] at h
      cases k with
      | zero =>
        dsimp only at h
        cases h
        exact ⟨a, ha, ho⟩
      | succ k =>
        dsimp only at h
        obtain ⟨c, h1, h2⟩ := Option.bind_eq_some_iff.1 h
        exact ih s c s' (.round ha ho h1) h2

theorem ends_effective {m : Redirects} (hdir : ∀ k v, m.get k = some v → m.get v = none) {t e : Nat} :
    Ends m.get t e ↔ e = effective m t := by
  have h : Ends m.get t (effective m t) := by
    unfold effective
    cases hg : m.get t with
    | none => exact .stop hg
    | some w => exact .hop hg (.stop (hdir t w hg))
  exact ⟨fun h' => h'.unique h, fun he => he ▸ h⟩

/-- C17: after the whole pass, every live jump to one target leads straight to the start of a block, and every
target of a live jump to several leads there by the single lookup made when generating code. No live
instruction is redirected. -/
theorem C17_targets {loc : AIState} (fuel : Nat) {s s' : DState} (hs : Steady s)
    (h : DState.dedup loc fuel s = some s') :
    (∀ (i : Nat) d, s'.prog.insts[i]? = some d → d.flags.deadCode = false → d.isStaticJump = true →
      d.flags.invalidJump = false → ∀ t,
        t ∈ (if d.flags.multiJump then (s'.prog.multi.lookup i).getD [] else [d.staticJumpTarget]) →
        (d.flags.multiJump = false → s'.redirects.get t = none) ∧
          ∃ b ∈ s'.prog.blocks, b.1 = effective s'.redirects t) ∧
    ∀ k v, s'.redirects.get k = some v → ¬ LiveAt s'.prog.insts k := by
  obtain ⟨b, hr, ho⟩ := dedup_rounds fuel h
  have H := rounds_steady hs hr
  rw [once_zero_prog ho, once_zero ho]
  refine ⟨fun i d hd hl hst hinv t ht => ?_, H.dead⟩
  cases hmu : d.flags.multiJump with
  | false =>
    rw [hmu] at ht
    simp only [Bool.false_eq_true, if_false, List.mem_singleton] at ht
    subst ht
    obtain ⟨c1, c2, c3⟩ := H.clean i d hd hl (Single.iff.2 ⟨hst, hinv, hmu⟩)
    refine ⟨fun _ => c1, ?_⟩
    obtain ⟨x, hx, hxe⟩ := b.prog.leader_start c2 c3
    exact ⟨x, hx, by unfold effective InstData.staticJumpTarget; rw [c1]; exact hxe⟩
  | true =>
    rw [hmu, if_pos rfl] at ht
    refine ⟨fun h => by simp at h, ?_⟩
    obtain ⟨_, _, _, m4⟩ := H.multi i d hd hl hmu
    obtain ⟨dt, e1, e2⟩ := m4 t ht
    have hrj : RJ b.prog (effective b.redirects t) := by
      refine ⟨dt, e1, ?_⟩
      unfold InstData.isReachableJumpdest
      rw [e2, (H.exact _ dt e1 e2).2 ⟨t, ⟨i, d, hd, mem_targetsOf_iff.2 ⟨hl, hst, hinv, .inl ⟨hmu, ht⟩⟩⟩,
        (ends_effective H.direct).2 rfl⟩]
      simp
    obtain ⟨x, hx, hxe⟩ := b.prog.leader_start (H.alive _ hrj) hrj.leader
    exact ⟨x, hx, hxe⟩

/-- C18 for the whole pass, on programs whose immediates can be told apart in the fingerprint (`Plain`; without
it the claim is false, `C18_merge_fails`). Every block of the program before the pass has a counterpart after
it, where the redirects lead: it executes the same opcodes with the same immediates, has the same possible
effects on every stack, falls through only if it is the same block, and its jump leads to the counterpart of
where the original's led. Missing: blocks whose immediates are not plain. -/
theorem C18_pass_partial {loc : AIState} (fuel : Nat) {s s' : DState} (hs : Steady s)
    (h : DState.dedup loc fuel s = some s') {code : Code} (hdec : Decoded code s.prog.insts)
    (hplain : ∀ (i : Nat) d, s.prog.insts[i]? = some d → d.flags.deadCode = false → Plain d) {b : Nat × Nat}
    (hb : b ∈ s.prog.blocks) :
    ∃ b' ∈ s'.prog.blocks, b'.1 = effective s'.redirects b.1 ∧
      SameCode code (s.prog.blockInsts b) (s'.prog.blockInsts b') ∧
      (∀ c c', Exec code (s.prog.blockInsts b) c c' ↔ Exec code (s'.prog.blockInsts b') c c') ∧
      ∃ td td', s.prog.insts[b.2 - 1]? = some td ∧ s'.prog.insts[b'.2 - 1]? = some td' ∧
        td'.opcode = td.opcode ∧ td'.canFallThrough = td.canFallThrough ∧ (td.canFallThrough = true → b' = b) ∧
        (td.isJump = true → ∀ c,
          (∀ t, s.prog.compiledNext code (b.2 - 1) td c = some t →
            ∃ t', s'.prog.compiledNext code (b'.2 - 1) td' c = some t' ∧
              effective s'.redirects t' = effective s'.redirects t) ∧
          (s.prog.compiledNext code (b.2 - 1) td c = none →
            td.flags.multiJump = false ∨ code.target (c.headD 0) = none →
            s'.prog.compiledNext code (b'.2 - 1) td' c = none)) := by
  obtain ⟨b0, hr, ho⟩ := dedup_rounds fuel h
  obtain ⟨H, hd2, hp2, hcp⟩ := rounds_counterpart hs hdec hplain hr
  obtain ⟨b', hb', r⟩ := hcp b hb
  rw [once_zero_prog ho, once_zero ho]
  obtain ⟨td, td', a1, a2, a3, a4⟩ := r.term
  refine ⟨b', hb', (ends_effective H.direct).1 r.start, ?_,
    fun c c' => ⟨instRel_exec r.body c c', instRel_exec (r.body.symm fun _ _ => InstRel.symm) c c'⟩,
    td, td', a1, a2, a3.op, a3.fall, a4, fun hj c => ?_⟩
  · unfold SameCode
    have hm := r.body
    generalize s.prog.blockInsts b = l at hm
    generalize b0.prog.blockInsts b' = l' at hm
    induction hm with
    | nil => rfl
    | cons h1 _ ih =>
      rw [List.map_cons, List.map_cons, ih, ← h1.opc]
      congr 1
      congr 1
      split
      · rename_i hc
        rw [h1.imm]
        unfold carriesImm at hc
        omega
      · rfl
  · obtain ⟨j1, j2, j3, j4⟩ := a3.jump hj
    have hcj : td'.hasConstJumpiCondition = td.hasConstJumpiCondition := j4
    -- the taken branch
    have key : ∀ w : Word,
        (∀ t, (if td.flags.invalidJump then none
          else if td.flags.multiJump then
            (code.target w).filter fun t => ((s.prog.multi.lookup (b.2 - 1)).getD []).contains t
          else if td.flags.staticJump then some td.staticJumpTarget
          else code.target w) = some t →
          ∃ t', (if td.flags.invalidJump then none
            else if td.flags.multiJump then
              (code.target w).filter fun t => ((b0.prog.multi.lookup (b'.2 - 1)).getD []).contains t
            else if td.flags.staticJump then some td'.staticJumpTarget
            else code.target w) = some t' ∧ effective b0.redirects t' = effective b0.redirects t) ∧
        ((if td.flags.invalidJump then none
          else if td.flags.multiJump then
            (code.target w).filter fun t => ((s.prog.multi.lookup (b.2 - 1)).getD []).contains t
          else if td.flags.staticJump then some td.staticJumpTarget
          else code.target w) = none → td.flags.multiJump = false ∨ code.target w = none →
          (if td.flags.invalidJump then none
            else if td.flags.multiJump then
              (code.target w).filter fun t => ((b0.prog.multi.lookup (b'.2 - 1)).getD []).contains t
            else if td.flags.staticJump then some td'.staticJumpTarget
            else code.target w) = none) := by
      intro w
      cases hinv : td.flags.invalidJump with
      | true => simp
      | false =>
        simp only [Bool.false_eq_true, if_false]
        cases hmu : td.flags.multiJump with
        | true =>
          simp only [if_true]
          refine ⟨fun t ht => ?_, fun _ hn => ?_⟩
          · rw [Option.filter_eq_some_iff] at ht
            refine ⟨t, ?_, rfl⟩
            rw [Option.filter_eq_some_iff]
            exact ⟨ht.1, by
              have := a3.multi hj hmu t (by simpa [multiAt] using ht.2)
              simpa [multiAt] using this⟩
          · rcases hn with hn | hn
            · simp at hn
            · rw [hn]; rfl
        | false =>
          simp only [Bool.false_eq_true, if_false]
          cases hst : td.flags.staticJump with
          | false =>
            simp only [Bool.false_eq_true, if_false]
            exact ⟨fun t ht => ⟨t, ht, rfl⟩, fun h _ => h⟩
          | true =>
            simp only [if_true]
            refine ⟨fun t ht => ⟨_, rfl, ?_⟩, fun h => by simp at h⟩
            have hsg : Single td = true := Single.iff.2
              ⟨by unfold InstData.isStaticJump; rw [hj, hst]; rfl, hinv, hmu⟩
            have := (a3.single hsg _).1 ((ends_effective H.direct).2 rfl)
            have := (ends_effective H.direct).1 this
            have ht : td.data = t := Option.some.inj ht
            rw [← ht]
            exact this.symm
    obtain ⟨key1, key2⟩ := key (c.headD 0)
    unfold Prog.compiledNext
    dsimp only
    rw [j1, j2, j3, hcj, a3.op]
    by_cases hji : td.opcode = op.JUMPI ∧ ¬ td.hasConstJumpiCondition = true
    · rw [if_pos hji, if_pos hji]
      by_cases hz : c.tail.headD 0 = 0#256
      · rw [if_pos hz, if_pos hz]
        refine ⟨fun t ht => ?_, fun h => by simp at h⟩
        have hff : td.canFallThrough = true := by
          obtain ⟨d1, d2⟩ := hs.jumps _ _ a1 hj
          unfold InstData.canFallThrough InstData.isDiverging
          have hc : td.hasConstJumpiCondition = false := by simpa using hji.2
          rw [d1, d2, hji.1, hc]
          rfl
        rw [a4 hff]
        exact ⟨t, ht, rfl⟩
      · rw [if_neg hz, if_neg hz]
        exact ⟨key1, key2⟩
    · rw [if_neg hji, if_neg hji]
      exact ⟨key1, key2⟩

/-! ## Constants -/

/-- C18, constants, for the whole pass: in every block that a redirect leads to, each recorded operand and result is
the one of the block-local pass `loc`, which assumes nothing about the block's entry stack
(`C14_unknown_entry`). -/
theorem C18_constants_pass {loc : AIState} (fuel : Nat) {s s' : DState} (hs : Steady s) (h0 : s.redirects = [])
    (h : DState.dedup loc fuel s = some s') {k v : Nat} (hk : s'.redirects.get k = some v) :
    ∃ b ∈ s'.prog.blocks, b.1 = v ∧
      ∀ i, b.1 ≤ i → i < b.2 → s'.ai.inputs i = loc.inputs i ∧ s'.ai.outputs i = loc.outputs i := by
  obtain ⟨b0, hr, ho⟩ := dedup_rounds fuel h
  have key : Steady b0 ∧ ∀ k v, b0.redirects.get k = some v → ∃ b ∈ b0.prog.blocks, b.1 = v ∧
      ∀ i, b.1 ≤ i → i < b.2 → AgreesAt loc b0.ai i := by
    clear hk ho h
    induction hr with
    | start => exact ⟨hs, fun k v hk => by rw [h0] at hk; simp [AMap.get] at hk⟩
    | @round a b c n _ h1 h2 ih =>
      obtain ⟨Ha, ia⟩ := ih
      obtain ⟨m, R, hc1, hc2, hai⟩ := round_of Ha h1 h2
      refine ⟨R.steady (ai := c.ai) Ha hc1 hc2, fun k v hk => ?_⟩
      have hag := mergeGroups_agrees _ (once_groups h1)
      have hend : Ends m.get k v := (hc1.ends k v).1 (.hop hk (.stop (hc2 k v hk)))
      rcases R.ends_cases Ha hend with he | ⟨x, hx, _, he⟩
      · cases hg : a.redirects.get k with
        | none =>
          exfalso
          have hkv : v = k := by rw [he]; unfold effective; rw [hg]; rfl
          have := hc1.earlier k v hk
          omega
        | some w =>
          have hvw : v = w := by rw [he]; unfold effective; rw [hg]; rfl
          subst hvw
          obtain ⟨x, hx, hxv, hxa⟩ := ia k v hg
          refine ⟨x, (R.blocks Ha).2 ⟨hx, fun y hy hxy => ?_⟩, hxv, fun i h3 h4 => by
            rw [hai]; exact hag.1 i (hxa i h3 h4)⟩
          have h5 := hend.unredirected
          rw [← hxv, hxy, R.edge y hy] at h5
          simp at h5
      · obtain ⟨g, hg, cc, bb, e1, e2, e3, e4, e5⟩ := mem_roundMerges hx
        refine ⟨x.canon, (R.blocks Ha).2 ⟨(mergeOk hx).canonIn, fun y hy => canon_ne_dup hx hy⟩, he.symm,
          fun i h3 h4 => ?_⟩
        rw [hai]
        exact hag.2 g.2 (List.mem_map.2 ⟨g, hg, rfl⟩) cc x.canon e1 (fun hn => by rw [hn] at e2; simp at e2) e4 i h3 h4
  obtain ⟨_, ia⟩ := key
  rw [once_zero ho] at hk
  obtain ⟨x, hx, hxv, hxa⟩ := ia k v hk
  refine ⟨x, by rw [once_zero_prog ho]; exact hx, hxv, fun i h1 h2 => ?_⟩
  exact (mergeGroups_agrees _ (once_groups ho)).1 i (hxa i h1 h2)

/-! ## A case meeting the hypotheses -/

/-- The part of `Steady` about one instruction, as a check for states without redirects. -/
def steadyAt (s : DState) (i : Nat) (d : InstData) : Bool :=
  (!d.isJumpdest || (d.reachable == (s.prog.collect 0 s.prog.insts).contains i)) &&
  (d.flags.deadCode || i == 0 || d.isReachableJumpdest s.prog.hasDyn ||
    (s.prog.insts[i - 1]?).any fun e => !e.flags.deadCode && (e.canFallThrough || (Single e && e.data == i))) &&
  (!d.isReachableJumpdest s.prog.hasDyn || !d.flags.deadCode) &&
  (d.flags.deadCode || !Single d || (((s.prog.insts[d.data]?).any fun t => !t.flags.deadCode) &&
    s.prog.isLeader d.data && (((s.prog.insts[d.data]?).any fun t => t.isJumpdest) || decide (d.data ≤ i + 1)))) &&
  (d.flags.deadCode || !d.flags.multiJump || (d.isStaticJump && !d.flags.invalidJump &&
    (s.prog.multi.lookup i).isSome && (multiAt s.prog i).all fun t => (s.prog.insts[t]?).any (·.isJumpdest))) &&
  (!d.isJump || (!d.flags.disabled && !d.flags.unknown))

/-- `Steady`, as a check for states without redirects. -/
def steadyCheck (s : DState) : Bool :=
  s.redirects.isEmpty && (s.prog.hasDyn == s.prog.recomputeHasDyn.hasDyn) &&
  (List.range s.prog.insts.length).all fun i => (s.prog.insts[i]?).all (steadyAt s i)

theorem any_live {l : List InstData} {i : Nat} (h : (l[i]?).any (fun t => !t.flags.deadCode) = true) : LiveAt l i := by
  cases hg : l[i]? with
  | none => rw [hg] at h; simp at h
  | some d => rw [hg] at h; exact ⟨d, hg, by simpa using h⟩

theorem any_jumpdest {l : List InstData} {i : Nat} (h : (l[i]?).any (·.isJumpdest) = true) :
    ∃ d, l[i]? = some d ∧ d.isJumpdest = true := by
  cases hg : l[i]? with
  | none => rw [hg] at h; simp at h
  | some d => rw [hg] at h; exact ⟨d, rfl, h⟩

theorem steady_of_check {s : DState} (h : steadyCheck s = true) : Steady s := by
  unfold steadyCheck at h
  rw [Bool.and_eq_true, Bool.and_eq_true] at h
  obtain ⟨⟨h0, hdyn⟩, h⟩ := h
  have hr : s.redirects = [] := by simpa using h0
  have hg : ∀ k, s.redirects.get k = none := by intro k; rw [hr]; rfl
  have heff : ∀ t, effective s.redirects t = t := by intro t; unfold effective; rw [hg]; rfl
  have hends : ∀ t e, Ends s.redirects.get t e ↔ t = e := by
    intro t e
    constructor
    · intro h
      cases h with
      | stop _ => rfl
      | hop h1 _ => rw [hg] at h1; simp at h1
    · rintro rfl; exact .stop (hg t)
  have key : ∀ (i : Nat) d, s.prog.insts[i]? = some d → steadyAt s i d = true := by
    intro i d hd
    have hi := (List.getElem?_eq_some_iff.1 hd).1
    have := List.all_eq_true.1 h i (List.mem_range.2 hi)
    rw [hd, Option.all_some] at this
    exact this
  unfold steadyAt at key
  simp only [Bool.and_eq_true] at key
  have hno : ∀ k v, s.redirects.get k ≠ some v := fun k v h => by rw [hg] at h; simp at h
  refine ⟨fun k v hk => absurd hk (hno k v), fun k v hk => absurd hk (hno k v), fun k v hk => absurd hk (hno k v),
    beq_iff_eq.1 hdyn, fun j d hd hj => ?_, fun j hj hl => ?_, fun j hj => ?_, fun i d hd hl hs => ?_,
    fun i d hd hl hs => ?_, fun i d hd hl hm => ?_, fun i d hd hj => ?_⟩
  · obtain ⟨⟨⟨⟨⟨k1, k2⟩, k3⟩, k4⟩, k5⟩, k6⟩ := key j d hd
    rw [hj, Bool.not_true, Bool.false_or, beq_iff_eq] at k1
    rw [k1, List.contains_iff_mem, mem_collect]
    simp only [hends, Nat.zero_add]
    constructor
    · intro h; exact ⟨j, h, rfl⟩
    · rintro ⟨t, h, rfl⟩; exact h
  · obtain ⟨d, hd, hl⟩ := hl
    obtain ⟨⟨⟨⟨⟨k1, k2⟩, k3⟩, k4⟩, k5⟩, k6⟩ := key j d hd
    rw [hl, Bool.false_or, Bool.or_eq_true, Bool.or_eq_true] at k2
    rcases k2 with (k2 | k2) | k2
    · simp only [beq_iff_eq] at k2; omega
    · exact .inl ⟨d, hd, k2⟩
    · right
      cases he : s.prog.insts[j - 1]? with
      | none => rw [he] at k2; simp at k2
      | some e =>
        rw [he, Option.any_some] at k2
        simp only [Bool.and_eq_true, Bool.not_eq_true', Bool.or_eq_true, beq_iff_eq] at k2
        exact ⟨e, rfl, k2.1, k2.2⟩
  · obtain ⟨d, hd, hrj⟩ := hj
    obtain ⟨⟨⟨⟨⟨k1, k2⟩, k3⟩, k4⟩, k5⟩, k6⟩ := key j d hd
    rw [hrj] at k3
    exact ⟨d, hd, by simpa using k3⟩
  · obtain ⟨⟨⟨⟨⟨k1, k2⟩, k3⟩, k4⟩, k5⟩, k6⟩ := key i d hd
    rw [hl, hs] at k4
    simp only [Bool.not_true, Bool.false_or, Bool.and_eq_true] at k4
    exact ⟨hg _, any_live k4.1.1, k4.1.2⟩
  · obtain ⟨⟨⟨⟨⟨k1, k2⟩, k3⟩, k4⟩, k5⟩, k6⟩ := key i d hd
    rw [hl, hs] at k4
    simp only [Bool.not_true, Bool.false_or, Bool.and_eq_true, Bool.or_eq_true, decide_eq_true_eq] at k4
    rcases k4.2 with k | k
    · exact .inl (any_jumpdest k)
    · exact .inr k
  · obtain ⟨⟨⟨⟨⟨k1, k2⟩, k3⟩, k4⟩, k5⟩, k6⟩ := key i d hd
    rw [hl, hm] at k5
    simp only [Bool.not_true, Bool.false_or, Bool.and_eq_true, Bool.not_eq_true'] at k5
    refine ⟨k5.1.1.1, k5.1.1.2, k5.1.2, fun t ht => ?_⟩
    rw [heff]
    exact any_jumpdest (List.all_eq_true.1 k5.2 t ht)
  · obtain ⟨⟨⟨⟨⟨k1, k2⟩, k3⟩, k4⟩, k5⟩, k6⟩ := key i d hd
    rw [hj] at k6
    simpa using k6

/-- `redirectBytes` goes through two rounds that merge blocks, and meets the hypotheses. -/
example : ∃ s', DState.dedup redirectState.ai 28 redirectState = some s' ∧ Steady redirectState ∧
    redirectState.redirects = [] ∧
    Decoded (parse (fun _ => 1) SpecId.CANCUN redirectBytes).toCode redirectState.prog.insts ∧
    (∀ (i : Nat) d, redirectState.prog.insts[i]? = some d → d.flags.deadCode = false → Plain d) ∧
    s'.redirects.get 17 = some 13 := by
  have ho : ((DState.dedup redirectState.ai 28 redirectState).map fun r => r.redirects.get 17) = some (some 13) := by
    decide +kernel
  obtain ⟨s', h1, h2⟩ := Option.map_eq_some_iff.1 ho
  refine ⟨s', h1, steady_of_check (by decide +kernel), rfl,
    decoded_analyze (fun _ => 1) SpecId.CANCUN 1000 redirectBytes (by decide), fun i d hd _ => ?_, h2⟩
  have hp : redirectState.prog.insts.all plainCheck = true := by decide +kernel
  exact plain_of_check (List.all_eq_true.1 hp d (List.mem_of_getElem? hd))

end Verif
