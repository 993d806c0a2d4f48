import Verif.Lemmas.DedupSteady
/-!
# Deduplication keeps the control-flow graph in shape
-/

namespace Verif
open Spec

/-- What holds before and after every round. -/
structure Steady (s : DState) : Prop where
  earlier : Earlier s.redirects.get
  direct : ∀ k v, s.redirects.get k = some v → s.redirects.get v = none
  dead : ∀ k v, s.redirects.get k = some v → ¬ LiveAt s.prog.insts k
  dyn : s.prog.hasDyn = s.prog.recomputeHasDyn.hasDyn
  exact : Exact s.redirects s.prog
  anch : Anch s.prog
  alive : ∀ j, RJ s.prog j → LiveAt s.prog.insts j
  clean : ∀ (i : Nat) d, s.prog.insts[i]? = some d → d.flags.deadCode = false → Single d = true →
    s.redirects.get d.data = none ∧ LiveAt s.prog.insts d.data ∧ s.prog.isLeader d.data = true
  lands : ∀ (i : Nat) d, s.prog.insts[i]? = some d → d.flags.deadCode = false → Single d = true →
    (∃ t, s.prog.insts[d.data]? = some t ∧ t.isJumpdest = true) ∨ d.data ≤ i + 1
  multi : ∀ (i : Nat) d, s.prog.insts[i]? = some d → d.flags.deadCode = false → d.flags.multiJump = true →
    d.isStaticJump = true ∧ d.flags.invalidJump = false ∧ (s.prog.multi.lookup i).isSome = true ∧
      ∀ t ∈ multiAt s.prog i, ∃ dt, s.prog.insts[effective s.redirects t]? = some dt ∧ dt.isJumpdest = true
  jumps : ∀ (i : Nat) d, s.prog.insts[i]? = some d → d.isJump = true →
    d.flags.disabled = false ∧ d.flags.unknown = false

/-- A round and the recomputed flags, before dead code is marked. -/
structure RoundOf (s : DState) (q : Prog) (m : Redirects) : Prop where
  len : q.insts.length = s.prog.insts.length
  inst : ∀ (i : Nat) d, s.prog.insts[i]? = some d → ∃ d', q.insts[i]? = some d' ∧ Merged (roundMerges s) i d d'
  multi : ∀ j, (∀ x ∈ roundMerges s, j ≠ x.dup.2 - 1) → (q.multi.lookup j).isSome = (s.prog.multi.lookup j).isSome ∧
      ∀ t, t ∈ multiAt q j ↔ t ∈ multiAt s.prog j ∨ ∃ x ∈ roundMerges s, x.canon.2 - 1 = j ∧
        flaggedMulti s.prog (x.dup.2 - 1) = true ∧ t ∈ multiAt s.prog (x.dup.2 - 1)
  edge : ∀ x ∈ roundMerges s, m.get x.dup.1 = some x.canon.1
  other : ∀ k, (∀ x ∈ roundMerges s, x.dup.1 ≠ k) → m.get k = s.redirects.get k
  exact : Exact m q
  dyn : q.hasDyn = q.recomputeHasDyn.hasDyn

theorem RoundOf.back {s : DState} {q : Prog} {m : Redirects} (R : RoundOf s q m) {i : Nat} {d' : InstData}
    (h : q.insts[i]? = some d') : ∃ d, s.prog.insts[i]? = some d ∧ Merged (roundMerges s) i d d' := by
  have hi : i < s.prog.insts.length := by rw [← R.len]; exact (List.getElem?_eq_some_iff.1 h).1
  obtain ⟨d', h1, h2⟩ := R.inst i _ (List.getElem?_eq_getElem hi)
  rw [h] at h1; cases h1
  exact ⟨_, List.getElem?_eq_getElem hi, h2⟩

theorem block_disjoint {p : Prog} {x y : Nat × Nat} (hx : x ∈ p.blocks) (hy : y ∈ p.blocks) {j : Nat}
    (h1 : x.1 ≤ j) (h2 : j < x.2) (h3 : y.1 ≤ j) (h4 : j < y.2) : x = y := by
  obtain ⟨m, hm⟩ := List.mem_iff_getElem?.1 hx
  obtain ⟨n, hn⟩ := List.mem_iff_getElem?.1 hy
  rcases Nat.lt_trichotomy m n with h | h | h
  · have := p.blocks_lt hm hn h; omega
  · subst h; rw [hm] at hn; exact Option.some.inj hn
  · have := p.blocks_lt hn hm h; omega

theorem inDup_iff {ms : List Merge} {i : Nat} : inDup ms i = true ↔ ∃ x ∈ ms, x.dup.1 ≤ i ∧ i < x.dup.2 := by
  unfold inDup
  simp [List.any_eq_true]

theorem Single.branching {d : InstData} (h : Single d = true) : d.isBranching = true := by
  unfold Single InstData.isStaticJump at h
  simp only [Bool.and_eq_true] at h
  unfold InstData.isBranching
  rw [h.1.1.1]; rfl

theorem jump_branching {d : InstData} (h : d.isJump = true) : d.isBranching = true := by
  unfold InstData.isBranching; rw [h]; rfl

theorem Merged.isBranching {ms : List Merge} {i : Nat} {d d' : InstData} (h : Merged ms i d d') :
    d'.isBranching = d.isBranching := by
  unfold InstData.isBranching InstData.isDiverging InstData.isJump
  rw [h.op, h.flags]

theorem Merged.canFall {ms : List Merge} {i : Nat} {d d' : InstData} (h : Merged ms i d d') :
    d'.canFallThrough = d.canFallThrough := by
  unfold InstData.canFallThrough InstData.isDiverging InstData.hasConstJumpiCondition
  rw [h.op, h.flags]

theorem Merged.isJump {ms : List Merge} {i : Nat} {d d' : InstData} (h : Merged ms i d d') :
    d'.isJump = d.isJump := by
  unfold InstData.isJump
  rw [h.op]

theorem Merged.isStaticJump {ms : List Merge} {i : Nat} {d d' : InstData} (h : Merged ms i d d') :
    d'.isStaticJump = d.isStaticJump := by
  unfold InstData.isStaticJump
  rw [h.isJump, h.flags]

theorem Merged.isJumpdest {ms : List Merge} {i : Nat} {d d' : InstData} (h : Merged ms i d d') :
    d'.isJumpdest = d.isJumpdest := by
  unfold InstData.isJumpdest
  rw [h.op]

theorem Merged.dead {ms : List Merge} {i : Nat} {d d' : InstData} (h : Merged ms i d d') :
    d'.flags.deadCode = (d.flags.deadCode || inDup ms i) := by rw [h.flags]

theorem Merged.live {ms : List Merge} {i : Nat} {d d' : InstData} (h : Merged ms i d d') :
    d'.flags.deadCode = false ↔ d.flags.deadCode = false ∧ inDup ms i = false := by
  rw [h.dead, Bool.or_eq_false_iff]

/-- The targets of a live jump. -/
theorem mem_targetsOf_iff {p : Prog} {i t : Nat} {d : InstData} : t ∈ p.targetsOf i d ↔
    d.flags.deadCode = false ∧ d.isStaticJump = true ∧ d.flags.invalidJump = false ∧
      ((d.flags.multiJump = true ∧ t ∈ multiAt p i) ∨ (d.flags.multiJump = false ∧ t = d.data)) := by
  unfold Prog.targetsOf multiAt InstData.staticJumpTarget
  cases d.isStaticJump <;> cases d.flags.invalidJump <;> cases d.flags.deadCode <;>
    cases d.flags.multiJump <;> simp

theorem Single.iff {d : InstData} : Single d = true ↔
    d.isStaticJump = true ∧ d.flags.invalidJump = false ∧ d.flags.multiJump = false := by
  unfold Single
  simp only [Bool.and_eq_true, Bool.not_eq_true', and_assoc]

theorem first_print {p : Prog} {x : Nat × Nat} {d : InstData} (hx : x.1 < x.2) (hd : p.insts[x.1]? = some d) :
    (fingerprint (p.blockInsts x)).head? = some d.opcode := by
  unfold Prog.blockInsts Prog.slice
  obtain ⟨n, hn⟩ : ∃ n, x.2 - x.1 = n + 1 := ⟨x.2 - x.1 - 1, by omega⟩
  rw [hn, List.range'_succ, List.filterMap_cons, hd]
  simp [fingerprint, instPrint]

section
variable {s : DState} (H : Steady s)
include H

theorem Steady.block_last {b : Nat × Nat} (hb : b ∈ s.prog.blocks) {j : Nat} {d : InstData} (h1 : b.1 ≤ j) (h2 : j < b.2)
    (hd : s.prog.insts[j]? = some d) (hbr : d.isBranching = true) : j = b.2 - 1 := by
  by_cases h : j + 1 < b.2
  · rw [H.anch.inner_fall hb h1 h hd] at hbr; simp at hbr
  · omega

/-- The block of a live instruction. -/
theorem Steady.block_of {j : Nat} (h : LiveAt s.prog.insts j) : ∃ b ∈ s.prog.blocks, b.1 ≤ j ∧ j < b.2 :=
  s.prog.blocks_ok.cover j (Nat.zero_le _) h

theorem Steady.start_of_leader {j : Nat} (h : LiveAt s.prog.insts j) (hl : s.prog.isLeader j = true) {b : Nat × Nat}
    (hb : b ∈ s.prog.blocks) (h1 : b.1 ≤ j) (h2 : j < b.2) : j = b.1 := by
  by_cases hj : j = b.1
  · exact hj
  · rw [s.prog.blocks_ok.inside b hb j (by omega) h2] at hl; simp at hl

/-- The first instructions of merged blocks have the same opcode. -/
theorem Steady.first_op {x : Merge} (hx : x ∈ roundMerges s) {d d' : InstData}
    (hd : s.prog.insts[x.dup.1]? = some d) (hd' : s.prog.insts[x.canon.1]? = some d') : d'.opcode = d.opcode := by
  have ho := mergeOk hx
  obtain ⟨k, k1, k2⟩ := ho.key
  obtain ⟨_, _, _, _, _, _, _, _, a, _⟩ := key_spec k1
  obtain ⟨_, _, _, _, _, _, _, _, b, _⟩ := key_spec k2
  have h1 := first_print (s.prog.blocks_ok.range _ ho.dupIn).2.1 hd
  have h2 := first_print (s.prog.blocks_ok.range _ ho.canonIn).2.1 hd'
  rw [← a] at h1; rw [← b, h1] at h2
  exact (Option.some.inj h2).symm

/-- The ends of merged blocks. -/
theorem Steady.terms {x : Merge} (hx : x ∈ roundMerges s) : ∃ td tc,
    s.prog.insts[x.dup.2 - 1]? = some td ∧ s.prog.insts[x.canon.2 - 1]? = some tc ∧
    td.flags.deadCode = false ∧ tc.flags.deadCode = false ∧
    td.canFallThrough = false ∧ tc.canFallThrough = false ∧
    (td.isJump = true → td.flags.staticJump = true) ∧ (tc.isJump = true → tc.flags.staticJump = true) ∧
    tc.flags.multiJump = td.flags.multiJump ∧ (Single td = true ↔ Single tc = true) ∧
    (Single td = true → tc.data = td.data) := by
  have ho := mergeOk hx
  obtain ⟨k, k1, k2⟩ := ho.key
  obtain ⟨td, fd, d1, d2, d3, d4, d5, d6, d7, d8, d9⟩ := key_spec k1
  obtain ⟨tc, fc, c1, c2, c3, c4, c5, c6, c7, c8, c9⟩ := key_spec k2
  have hld : td.flags.deadCode = false := by
    obtain ⟨t, ht, hl⟩ := s.prog.blocks_ok.last _ ho.dupIn
    rw [d1] at ht; cases ht; exact hl
  have hlc : tc.flags.deadCode = false := by
    obtain ⟨t, ht, hl⟩ := s.prog.blocks_ok.last _ ho.canonIn
    rw [c1] at ht; cases ht; exact hl
  have hm : tc.flags.multiJump = td.flags.multiJump := c9.symm.trans d9
  -- the successors of a block, its end not being a jump with several targets
  have hs : ∀ {y : Nat × Nat} {t : InstData}, s.prog.insts[y.2 - 1]? = some t → t.canFallThrough = false →
      t.flags.deadCode = false → t.flags.multiJump = false →
      (Single t = true → ∃ b z, s.prog.blocks[b]? = some z ∧ z.1 = t.data ∧ s.succs s.prog.blocks y = [b]) ∧
      (Single t = false → s.succs s.prog.blocks y = []) := by
    intro y t ht hf hl hmu
    refine ⟨fun hsg => ?_, fun hsg => ?_⟩
    · obtain ⟨a1, a2, a3⟩ := H.clean _ _ ht hl hsg
      obtain ⟨z, z1, z2⟩ := s.prog.leader_start a2 a3
      obtain ⟨b, b1, b2⟩ := instToBlock_start z1
      refine ⟨b, z, b2, z2, ?_⟩
      rw [Single.iff] at hsg
      rw [succs_single ht hf hmu hsg.1, hsg.2.1]
      have : effective s.redirects t.staticJumpTarget = z.1 := by
        unfold effective InstData.staticJumpTarget; rw [a1, z2]; rfl
      rw [this, b1]; rfl
    · have hc : (t.isStaticJump && !t.flags.invalidJump) = false := by
        unfold Single at hsg
        rw [hmu] at hsg
        simpa using hsg
      unfold DState.succs
      rw [ht]
      dsimp only
      rw [hf, hmu, hc]
      simp
  refine ⟨td, tc, d1, c1, hld, hlc, d3, c3, d6, c6, hm, ?_⟩
  cases hmu : td.flags.multiJump with
  | true =>
    have h1 : Single td = false := by
      cases h : Single td with
      | false => rfl
      | true => rw [Single.iff, hmu] at h; simp at h
    have h2 : Single tc = false := by
      cases h : Single tc with
      | false => rfl
      | true => rw [Single.iff, hm, hmu] at h; simp at h
    rw [h1, h2]; simp
  | false =>
    obtain ⟨p1, p2⟩ := hs d1 d3 hld hmu
    obtain ⟨q1, q2⟩ := hs c1 c3 hlc (hm.trans hmu)
    have he : s.succs s.prog.blocks x.dup = s.succs s.prog.blocks x.canon := d8.symm.trans c8
    cases h1 : Single td with
    | true =>
      obtain ⟨b, z, g1, g2, g3⟩ := p1 h1
      cases h2 : Single tc with
      | true =>
        obtain ⟨b', z', g1', g2', g3'⟩ := q1 h2
        rw [g3, g3'] at he
        cases he
        rw [g1] at g1'; cases g1'
        exact ⟨by simp, fun _ => g2'.symm.trans g2⟩
      | false => rw [g3, q2 h2] at he; simp at he
    | false =>
      cases h2 : Single tc with
      | true =>
        obtain ⟨b', z', g1', g2', g3'⟩ := q1 h2
        rw [p2 h1, g3'] at he; simp at he
      | false => simp

/-- A kept block has no instruction of a duplicate. -/
theorem Steady.kept {b : Nat × Nat} (hb : b ∈ s.prog.blocks) (hn : ∀ x ∈ roundMerges s, b ≠ x.dup) {j : Nat}
    (h1 : b.1 ≤ j) (h2 : j < b.2) : inDup (roundMerges s) j = false := by
  cases h : inDup (roundMerges s) j with
  | false => rfl
  | true =>
    obtain ⟨x, hx, h3, h4⟩ := inDup_iff.1 h
    exact absurd (block_disjoint hb (mergeOk hx).dupIn h1 h2 h3 h4) (hn x hx)

theorem Steady.canon_kept {x : Merge} (hx : x ∈ roundMerges s) {j : Nat} (h1 : x.canon.1 ≤ j) (h2 : j < x.canon.2) :
    inDup (roundMerges s) j = false :=
  H.kept (mergeOk hx).canonIn (fun _ hy => canon_ne_dup hx hy) h1 h2

theorem Steady.canon_start {x : Merge} (hx : x ∈ roundMerges s) : inDup (roundMerges s) x.canon.1 = false :=
  H.canon_kept hx (Nat.le_refl _) (s.prog.blocks_ok.range _ (mergeOk hx).canonIn).2.1

theorem Steady.canon_term {x : Merge} (hx : x ∈ roundMerges s) : inDup (roundMerges s) (x.canon.2 - 1) = false := by
  have := (s.prog.blocks_ok.range _ (mergeOk hx).canonIn).2.1
  exact H.canon_kept hx (by omega) (by omega)

theorem Steady.dup_start {x : Merge} (hx : x ∈ roundMerges s) : inDup (roundMerges s) x.dup.1 = true :=
  inDup_iff.2 ⟨x, hx, Nat.le_refl _, (s.prog.blocks_ok.range _ (mergeOk hx).dupIn).2.1⟩

theorem Steady.dup_term {x : Merge} (hx : x ∈ roundMerges s) : inDup (roundMerges s) (x.dup.2 - 1) = true := by
  have := (s.prog.blocks_ok.range _ (mergeOk hx).dupIn).2.1
  exact inDup_iff.2 ⟨x, hx, by omega, by omega⟩

theorem Steady.canon_ne {x y : Merge} (hx : x ∈ roundMerges s) (hy : y ∈ roundMerges s) : x.canon.1 ≠ y.dup.1 := by
  intro h
  have := H.canon_start hx
  rw [h, H.dup_start hy] at this; simp at this

/-- A dead instruction's redirect is no start of a duplicate. -/
theorem Steady.not_dup {k v : Nat} (h : s.redirects.get k = some v) : ∀ x ∈ roundMerges s, x.dup.1 ≠ k := by
  intro x hx he
  refine H.dead k v h ?_
  rw [← he]
  exact s.prog.blocks_ok.first _ (mergeOk hx).dupIn

end

section
variable {s : DState} {q : Prog} {m : Redirects} (H : Steady s) (R : RoundOf s q m)
include H R

theorem RoundOf.live_iff {j : Nat} : LiveAt q.insts j ↔ LiveAt s.prog.insts j ∧ inDup (roundMerges s) j = false := by
  constructor
  · rintro ⟨d', h1, h2⟩
    obtain ⟨d, g1, g2⟩ := R.back h1
    rw [g2.live] at h2
    exact ⟨⟨d, g1, h2.1⟩, h2.2⟩
  · rintro ⟨⟨d, h1, h2⟩, h3⟩
    obtain ⟨d', g1, g2⟩ := R.inst _ d h1
    exact ⟨d', g1, g2.live.2 ⟨h2, h3⟩⟩

theorem RoundOf.hasDyn : q.hasDyn = s.prog.hasDyn := by
  rw [R.dyn, H.dyn]
  unfold Prog.recomputeHasDyn
  dsimp only
  rw [Bool.eq_iff_iff, List.any_eq_true, List.any_eq_true]
  constructor
  · rintro ⟨d', h1, h2⟩
    obtain ⟨i, hi⟩ := List.mem_iff_getElem?.1 h1
    obtain ⟨d, g1, g2⟩ := R.back hi
    refine ⟨d, List.mem_of_getElem? g1, ?_⟩
    simp only [Bool.and_eq_true, Bool.not_eq_true'] at h2 ⊢
    have h3 := h2.1.2
    rw [g2.flags] at h3
    exact ⟨⟨g2.isJump ▸ h2.1.1, h3⟩, (g2.live.1 h2.2).1⟩
  · rintro ⟨d, h1, h2⟩
    obtain ⟨i, hi⟩ := List.mem_iff_getElem?.1 h1
    obtain ⟨d', g1, g2⟩ := R.inst _ d hi
    refine ⟨d', List.mem_of_getElem? g1, ?_⟩
    simp only [Bool.and_eq_true, Bool.not_eq_true'] at h2 ⊢
    refine ⟨⟨g2.isJump ▸ h2.1.1, by rw [g2.flags]; exact h2.1.2⟩, g2.live.2 ⟨h2.2, ?_⟩⟩
    cases hd : inDup (roundMerges s) i with
    | false => rfl
    | true =>
      obtain ⟨x, hx, h3, h4⟩ := inDup_iff.1 hd
      have := H.block_last (mergeOk hx).dupIn h3 h4 hi (jump_branching h2.1.1)
      subst this
      obtain ⟨td, tc, t1, _, _, _, _, _, t6, _⟩ := H.terms hx
      rw [hi] at t1; cases t1
      rw [t6 h2.1.1] at h2; simp at h2

theorem RoundOf.old {k v : Nat} (h : s.redirects.get k = some v) : m.get k = some v := by
  rw [R.other k (H.not_dup h), h]

theorem RoundOf.ends_eff (t e : Nat) : Ends m.get t e ↔ Ends m.get (effective s.redirects t) e := by
  unfold effective
  cases hg : s.redirects.get t with
  | none => exact Iff.rfl
  | some w => exact ends_hop_iff (R.old H hg) e

theorem Steady.eff_none (t : Nat) : s.redirects.get (effective s.redirects t) = none := by
  unfold effective
  cases hg : s.redirects.get t with
  | none => exact hg
  | some w => exact H.direct t w hg

theorem Steady.ends_eff {t e : Nat} : Ends s.redirects.get t e ↔ e = effective s.redirects t := by
  have h : Ends s.redirects.get t (effective s.redirects t) := by
    unfold effective
    cases hg : s.redirects.get t with
    | none => exact .stop hg
    | some w => exact .hop hg (.stop (H.direct t w hg))
  exact ⟨fun h' => h'.unique h, fun he => he ▸ h⟩

theorem RoundOf.none_iff {k : Nat} : m.get k = none ↔ s.redirects.get k = none ∧ ∀ x ∈ roundMerges s, x.dup.1 ≠ k := by
  constructor
  · intro h
    have h2 : ∀ x ∈ roundMerges s, x.dup.1 ≠ k := by
      intro x hx he
      rw [← he, R.edge x hx] at h; simp at h
    exact ⟨by rw [← R.other k h2]; exact h, h2⟩
  · rintro ⟨h1, h2⟩
    rw [R.other k h2, h1]

theorem RoundOf.canon_none {x : Merge} (hx : x ∈ roundMerges s) : m.get x.canon.1 = none := by
  rw [R.none_iff H]
  refine ⟨?_, fun y hy he => H.canon_ne hx hy he.symm⟩
  cases h : s.redirects.get x.canon.1 with
  | none => rfl
  | some v => exact absurd (s.prog.blocks_ok.first _ (mergeOk hx).canonIn) (H.dead _ _ h)

/-- Where redirects lead after the round. -/
theorem RoundOf.ends_cases {t e : Nat} (h : Ends m.get t e) : e = effective s.redirects t ∨
    ∃ x ∈ roundMerges s, x.dup.1 = effective s.redirects t ∧ e = x.canon.1 := by
  rw [R.ends_eff H] at h
  cases h with
  | stop _ => exact .inl rfl
  | hop h1 h2 =>
    by_cases hd : ∃ x ∈ roundMerges s, x.dup.1 = effective s.redirects t
    · obtain ⟨x, hx, he⟩ := hd
      rw [← he, R.edge x hx] at h1
      cases h1
      exact .inr ⟨x, hx, he, h2.unique (.stop (R.canon_none H hx))⟩
    · rw [R.other _ (fun x hx he => hd ⟨x, hx, he⟩), Steady.eff_none H R] at h1
      simp at h1

/-- The target of a surviving single jump. -/
theorem RoundOf.data {i : Nat} {d d' : InstData} (hd : Merged (roundMerges s) i d d') :
    d'.data = d.data ∨ (Single d = true ∧ ∃ x ∈ roundMerges s, d.data = x.dup.1 ∧ d'.data = x.canon.1) := by
  rw [hd.data]
  exact foldl_hit _ (fun a ha b hb => H.canon_ne ha hb) i _ _

theorem RoundOf.jumps_of {j t i : Nat} {d : InstData} (hi : s.prog.insts[i]? = some d) (ht : t ∈ s.prog.targetsOf i d)
    (he : effective s.redirects t = j) (hj : inDup (roundMerges s) j = false) :
    ∃ t', JumpsTo q t' ∧ Ends m.get t' j := by
  have hjn : ∀ x ∈ roundMerges s, x.dup.1 ≠ j := fun x hx h => by
    rw [← h, H.dup_start hx] at hj; simp at hj
  have hnone : m.get j = none := (R.none_iff H).2 ⟨by rw [← he]; exact Steady.eff_none H R t, hjn⟩
  have hend : Ends m.get t j := (R.ends_eff H t j).2 (he ▸ .stop (he.symm ▸ hnone))
  obtain ⟨a1, a2, a3, a4⟩ := mem_targetsOf_iff.1 ht
  -- from a surviving jump
  have key : ∀ {k : Nat} {e : InstData}, s.prog.insts[k]? = some e → inDup (roundMerges s) k = false →
      t ∈ s.prog.targetsOf k e → JumpsTo q t ∨ JumpsTo q j := by
    intro k e hk hn hte
    obtain ⟨b1, b2, b3, b4⟩ := mem_targetsOf_iff.1 hte
    obtain ⟨e', g1, g2⟩ := R.inst _ e hk
    have g3 := g2.live.2 ⟨b1, hn⟩
    have g4 := g2.isStaticJump.trans b2
    have g5 : e'.flags.invalidJump = false := by rw [g2.flags]; exact b3
    have g6 : e'.flags.multiJump = e.flags.multiJump := by rw [g2.flags]
    rcases b4 with ⟨b4, b5⟩ | ⟨b4, b5⟩
    · left
      refine ⟨k, e', g1, mem_targetsOf_iff.2 ⟨g3, g4, g5, .inl ⟨g6.trans b4, ?_⟩⟩⟩
      refine ((R.multi k fun x hx hc => ?_).2 t).2 (.inl b5)
      rw [hc, H.dup_term hx] at hn; simp at hn
    · right
      have hsg : Single e = true := Single.iff.2 ⟨b2, b3, b4⟩
      have hc := (H.clean _ _ hk b1 hsg).1
      have htj : t = j := by
        rw [← he]; unfold effective; rw [b5, hc]; rfl
      refine ⟨k, e', g1, mem_targetsOf_iff.2 ⟨g3, g4, g5, .inr ⟨g6.trans b4, ?_⟩⟩⟩
      rcases R.data H g2 with h | ⟨_, x, hx, h, _⟩
      · rw [h, ← b5, htj]
      · exact absurd (h.symm.trans (b5.symm.trans htj)) (hjn x hx)
  have fin : JumpsTo q t ∨ JumpsTo q j → ∃ t', JumpsTo q t' ∧ Ends m.get t' j := by
    rintro (h | h)
    · exact ⟨t, h, hend⟩
    · exact ⟨j, h, .stop hnone⟩
  cases hd : inDup (roundMerges s) i with
  | false => exact fin (key hi hd ht)
  | true =>
    obtain ⟨x, hx, h3, h4⟩ := inDup_iff.1 hd
    have hjmp : d.isJump = true := by
      unfold InstData.isStaticJump at a2; rw [Bool.and_eq_true] at a2; exact a2.1
    have := H.block_last (mergeOk hx).dupIn h3 h4 hi (jump_branching hjmp)
    subst this
    obtain ⟨td, tc, t1, t2, t3, t4, t5, t6, t7, t8, t9, t10, t11⟩ := H.terms hx
    rw [hi] at t1; cases t1
    rcases a4 with ⟨a4, a5⟩ | ⟨a4, a5⟩
    · obtain ⟨tc', g1, g2⟩ := R.inst _ tc t2
      obtain ⟨m1, m2, m3, _⟩ := H.multi _ _ t2 t4 (t9.trans a4)
      refine ⟨t, ⟨_, tc', g1, mem_targetsOf_iff.2 ⟨g2.live.2 ⟨t4, H.canon_term hx⟩, g2.isStaticJump.trans m1,
        by rw [g2.flags]; exact m2, .inl ⟨by rw [g2.flags]; exact t9.trans a4, ?_⟩⟩⟩, hend⟩
      refine ((R.multi _ fun y hy hc => ?_).2 t).2 (.inr ⟨x, hx, rfl, ?_, a5⟩)
      · have := H.canon_term hx
        rw [hc, H.dup_term hy] at this; simp at this
      · unfold flaggedMulti; rw [hi]; exact a4
    · have hsg : Single d = true := Single.iff.2 ⟨a2, a3, a4⟩
      have hsc := t10.1 hsg
      obtain ⟨c1, c2, c3⟩ := Single.iff.1 hsc
      exact fin (key t2 (H.canon_term hx) (mem_targetsOf_iff.2 ⟨t4, c1, c2, .inr ⟨c3, by rw [t11 hsg]; exact a5⟩⟩))

/-- Surviving reachable jump destinations stay reachable. -/
theorem RoundOf.rj {j : Nat} (h : RJ s.prog j) (hj : inDup (roundMerges s) j = false) : RJ q j := by
  obtain ⟨d, h1, h2⟩ := h
  obtain ⟨d', g1, g2⟩ := R.inst _ d h1
  unfold InstData.isReachableJumpdest at h2
  simp only [Bool.and_eq_true, Bool.or_eq_true] at h2
  have hjd' := g2.isJumpdest.trans h2.1
  refine ⟨d', g1, ?_⟩
  unfold InstData.isReachableJumpdest
  simp only [Bool.and_eq_true, Bool.or_eq_true]
  refine ⟨hjd', ?_⟩
  rcases h2.2 with h | h
  · left; rw [R.hasDyn H]; exact h
  · right
    obtain ⟨t, ⟨i, di, hi, ht⟩, he⟩ := (H.exact j d h1 h2.1).1 h
    obtain ⟨t', ht', he'⟩ := R.jumps_of H hi ht ((Steady.ends_eff H R).1 he).symm hj
    exact (R.exact j d' g1 hjd').2 ⟨t', ht', he'⟩

/-- Where a jump that survives led before. -/
theorem RoundOf.from_old {t j : Nat} (ht : JumpsTo q t) (he : Ends m.get t j) :
    (∃ t', JumpsTo s.prog t' ∧ Ends s.redirects.get t' j) ∨ ∃ x ∈ roundMerges s, j = x.canon.1 := by
  obtain ⟨i, d', hi, ht⟩ := ht
  obtain ⟨a1, a2, a3, a4⟩ := mem_targetsOf_iff.1 ht
  obtain ⟨d, g1, g2⟩ := R.back hi
  obtain ⟨l1, l2⟩ := g2.live.1 a1
  have b2 := g2.isStaticJump.symm.trans a2
  have b3 : d.flags.invalidJump = false := by rw [g2.flags] at a3; exact a3
  have b4 : d'.flags.multiJump = d.flags.multiJump := by rw [g2.flags]
  have fin : JumpsTo s.prog t → (∃ t', JumpsTo s.prog t' ∧ Ends s.redirects.get t' j) ∨
      ∃ x ∈ roundMerges s, j = x.canon.1 := by
    intro hjt
    rcases R.ends_cases H he with h | ⟨x, hx, _, h⟩
    · exact .inl ⟨t, hjt, (Steady.ends_eff H R).2 h⟩
    · exact .inr ⟨x, hx, h⟩
  rcases a4 with ⟨a4, a5⟩ | ⟨a4, a5⟩
  · rcases ((R.multi i fun x hx hc => by
      rw [hc, H.dup_term hx] at l2; simp at l2).2 t).1 a5 with h | ⟨x, hx, h1, h2, h3⟩
    · exact fin ⟨i, d, g1, mem_targetsOf_iff.2 ⟨l1, b2, b3, .inl ⟨b4.symm.trans a4, h⟩⟩⟩
    · obtain ⟨td, tc, t1, t2, t3, t4, t5, t6, t7, t8, t9, t10, t11⟩ := H.terms hx
      have hmu : td.flags.multiJump = true := by
        unfold flaggedMulti at h2; rw [t1] at h2; exact h2
      obtain ⟨m1, m2, m3, _⟩ := H.multi _ _ t1 t3 hmu
      exact fin ⟨_, td, t1, mem_targetsOf_iff.2 ⟨t3, m1, m2, .inl ⟨hmu, h3⟩⟩⟩
  · rcases R.data H g2 with h | ⟨_, x, hx, h1, h2⟩
    · exact fin ⟨i, d, g1, mem_targetsOf_iff.2 ⟨l1, b2, b3, .inr ⟨b4.symm.trans a4, a5.trans h⟩⟩⟩
    · right
      refine ⟨x, hx, ?_⟩
      rw [a5, h2] at he
      exact he.unique (.stop (R.canon_none H hx))

theorem RoundOf.rj_old {j : Nat} (h : RJ q j) : (RJ s.prog j ∨ ∃ x ∈ roundMerges s, j = x.canon.1) ∧
    inDup (roundMerges s) j = false := by
  obtain ⟨d', h1, h2⟩ := h
  obtain ⟨d, g1, g2⟩ := R.back h1
  unfold InstData.isReachableJumpdest at h2
  simp only [Bool.and_eq_true, Bool.or_eq_true] at h2
  have hjd := g2.isJumpdest.symm.trans h2.1
  have hrj : RJ s.prog j ∨ ∃ x ∈ roundMerges s, j = x.canon.1 := by
    rcases h2.2 with h | h
    · left
      refine ⟨d, g1, ?_⟩
      unfold InstData.isReachableJumpdest
      rw [hjd, ← R.hasDyn H, h]; rfl
    · obtain ⟨t, ht, he⟩ := (R.exact j d' h1 h2.1).1 h
      rcases R.from_old H ht he with ⟨t', h3, h4⟩ | h3
      · left
        refine ⟨d, g1, ?_⟩
        unfold InstData.isReachableJumpdest
        rw [hjd, (H.exact j d g1 hjd).2 ⟨t', h3, h4⟩]; simp
      · exact .inr h3
  refine ⟨hrj, ?_⟩
  rcases hrj with hrj | ⟨x, hx, rfl⟩
  · cases hd : inDup (roundMerges s) j with
    | false => rfl
    | true =>
      exfalso
      obtain ⟨x, hx, h3, h4⟩ := inDup_iff.1 hd
      have := H.start_of_leader (H.alive j hrj) hrj.leader (mergeOk hx).dupIn h3 h4
      subst this
      rcases h2.2 with h | h
      · obtain ⟨k, k1, _⟩ := (mergeOk hx).key
        obtain ⟨_, fd, _, e2, _, e4, _⟩ := key_spec k1
        rw [g1] at e2; cases e2
        unfold InstData.isReachableJumpdest at e4
        rw [← R.hasDyn H, h, hjd] at e4
        simp at e4
      · obtain ⟨t, _, he⟩ := (R.exact _ d' h1 h2.1).1 h
        have := he.unredirected
        rw [R.edge x hx] at this; simp at this
  · exact H.canon_start hx

/-- What follows a duplicate and survives is a reachable jump destination. -/
theorem RoundOf.after_dup {x : Merge} (hx : x ∈ roundMerges s) (hl : LiveAt s.prog.insts x.dup.2)
    (hn : inDup (roundMerges s) x.dup.2 = false) : RJ q x.dup.2 := by
  have hr := (s.prog.blocks_ok.range _ (mergeOk hx).dupIn).2.1
  obtain ⟨td, tc, t1, t2, t3, t4, t5, t6, t7, t8, t9, t10, t11⟩ := H.terms hx
  rcases H.anch x.dup.2 (by omega) hl with h | ⟨d, h1, _, h2⟩
  · exact R.rj H h hn
  · rw [t1] at h1; cases h1
    rcases h2 with h2 | ⟨h2, h3⟩
    · rw [t5] at h2; simp at h2
    · rcases H.lands _ _ t2 t4 (t10.1 h2) with ⟨t, ht1, ht2⟩ | h
      · rw [t11 h2, h3] at ht1
        refine R.rj H ⟨t, ht1, ?_⟩ hn
        unfold InstData.isReachableJumpdest
        rw [ht2]
        have : t.reachable = true := by
          obtain ⟨c1, c2, c3⟩ := Single.iff.1 h2
          refine (H.exact _ t ht1 ht2).2 ⟨td.data, ⟨_, td, t1, mem_targetsOf_iff.2 ⟨t3, c1, c2, .inr ⟨c3, rfl⟩⟩⟩, ?_⟩
          rw [← h3]
          exact .stop (H.clean _ _ t1 t3 h2).1
        rw [this]; simp
      · rw [t11 h2, h3] at h
        have h4 := (mergeOk hx).before
        have h5 := (s.prog.blocks_ok.range _ (mergeOk hx).canonIn).2.1
        omega

theorem RoundOf.prev {j : Nat} (h0 : 0 < j) (hn : inDup (roundMerges s) j = false)
    (hp : inDup (roundMerges s) (j - 1) = true) : ∃ x ∈ roundMerges s, j = x.dup.2 := by
  obtain ⟨x, hx, h1, h2⟩ := inDup_iff.1 hp
  refine ⟨x, hx, ?_⟩
  by_cases h : j < x.dup.2
  · rw [inDup_iff.2 ⟨x, hx, by omega, h⟩] at hn; simp at hn
  · omega

theorem RoundOf.anch : Anch q := by
  intro j h0 hl
  obtain ⟨hl, hn⟩ := (R.live_iff H).1 hl
  rcases H.anch j h0 hl with h | ⟨d, h1, h2, h3⟩
  · exact .inl (R.rj H h hn)
  · cases hp : inDup (roundMerges s) (j - 1) with
    | true =>
      obtain ⟨x, hx, rfl⟩ := RoundOf.prev H R h0 hn hp
      exact .inl (R.after_dup H hx hl hn)
    | false =>
      right
      obtain ⟨d', g1, g2⟩ := R.inst _ d h1
      refine ⟨d', g1, g2.live.2 ⟨h2, hp⟩, ?_⟩
      rcases h3 with h3 | ⟨h3, h4⟩
      · exact .inl (g2.canFall.trans h3)
      · right
        refine ⟨g2.single.trans h3, ?_⟩
        rcases R.data H g2 with h | ⟨_, x, hx, h, _⟩
        · exact h.trans h4
        · rw [h4.symm.trans h, H.dup_start hx] at hn; simp at hn

theorem RoundOf.leader {j : Nat} (hl : LiveAt q.insts j) : q.isLeader j = s.prog.isLeader j := by
  obtain ⟨hl, hn⟩ := (R.live_iff H).1 hl
  rw [Bool.eq_iff_iff]
  constructor
  · intro h
    rcases leader_cases h with h | h | ⟨h0, d', h1, h2, h3⟩
    · rw [h]; simp [Prog.isLeader]
    · rcases (R.rj_old H h).1 with h | ⟨x, hx, rfl⟩
      · exact h.leader
      · exact H.anch.start (mergeOk hx).canonIn
    · obtain ⟨d, g1, g2⟩ := R.back h1
      exact leader_after h0 g1 (g2.live.1 h2).1 (g2.isBranching ▸ h3)
  · intro h
    rcases leader_cases h with h | h | ⟨h0, d, h1, h2, h3⟩
    · rw [h]; simp [Prog.isLeader]
    · exact (R.rj H h hn).leader
    · cases hp : inDup (roundMerges s) (j - 1) with
      | true =>
        obtain ⟨x, hx, rfl⟩ := RoundOf.prev H R h0 hn hp
        exact (R.after_dup H hx hl hn).leader
      | false =>
        obtain ⟨d', g1, g2⟩ := R.inst _ d h1
        exact leader_after h0 g1 (g2.live.2 ⟨h2, hp⟩) (g2.isBranching.trans h3)

/-- A round removes the duplicates from the blocks and leaves the others. -/
theorem RoundOf.blocks {b : Nat × Nat} : b ∈ q.blocks ↔ b ∈ s.prog.blocks ∧ ∀ x ∈ roundMerges s, b ≠ x.dup := by
  obtain ⟨a, b⟩ := b
  constructor
  · intro h
    rw [(R.anch H).mem_blocks] at h
    obtain ⟨h1, h2, h3, h4, h5⟩ := h
    refine ⟨(H.anch.mem_blocks a b).2 ⟨?_, h2, fun j g1 g2 => ((R.live_iff H).1 (h3 j g1 g2)).1, fun j g1 g2 => ?_,
      fun hb => ?_⟩, fun x hx he => ?_⟩
    · rw [← R.leader H (h3 a (Nat.le_refl _) h2)]; exact h1
    · rw [← R.leader H (h3 j (by omega) g2)]; exact h4 j g1 g2
    · cases hd : inDup (roundMerges s) b with
      | false =>
        have := (R.live_iff H).2 ⟨hb, hd⟩
        rw [← R.leader H this]; exact h5 this
      | true =>
        obtain ⟨x, hx, g1, g2⟩ := inDup_iff.1 hd
        have : x.dup.1 = b := by
          by_cases hc : x.dup.1 = b
          · exact hc
          · have h6 := ((R.live_iff H).1 (h3 (b - 1) (by omega) (by omega))).2
            rw [inDup_iff.2 ⟨x, hx, by omega, by omega⟩] at h6; simp at h6
        rw [← this]
        exact H.anch.start (mergeOk hx).dupIn
    · have h6 := ((R.live_iff H).1 (h3 a (Nat.le_refl _) h2)).2
      have h7 := H.dup_start hx
      rw [← he] at h7
      rw [h7] at h6; simp at h6
  · rintro ⟨h, hne⟩
    have hk := fun j (h1 : a ≤ j) (h2 : j < b) => H.kept h hne (j := j) h1 h2
    rw [H.anch.mem_blocks] at h
    obtain ⟨h1, h2, h3, h4, h5⟩ := h
    have hl : ∀ j, a ≤ j → j < b → LiveAt q.insts j := fun j g1 g2 => (R.live_iff H).2 ⟨h3 j g1 g2, hk j g1 g2⟩
    rw [(R.anch H).mem_blocks]
    refine ⟨?_, h2, hl, fun j g1 g2 => ?_, fun hb => ?_⟩
    · rw [R.leader H (hl a (Nat.le_refl _) h2)]; exact h1
    · rw [R.leader H (hl j (by omega) g2)]; exact h4 j g1 g2
    · rw [R.leader H hb]; exact h5 ((R.live_iff H).1 hb).1


/-- A surviving jump to one target leads to a surviving block. -/
theorem RoundOf.clean {i : Nat} {d' : InstData} (hi : q.insts[i]? = some d') (hl : d'.flags.deadCode = false)
    (hs : Single d' = true) : m.get d'.data = none ∧ LiveAt q.insts d'.data ∧ q.isLeader d'.data = true := by
  obtain ⟨d, g1, g2⟩ := R.back hi
  obtain ⟨l1, l2⟩ := g2.live.1 hl
  have hsd := g2.single.symm.trans hs
  obtain ⟨c1, c2, c3⟩ := H.clean i d g1 l1 hsd
  have fin : ∀ {j : Nat}, m.get j = none → LiveAt s.prog.insts j → s.prog.isLeader j = true →
      inDup (roundMerges s) j = false → m.get j = none ∧ LiveAt q.insts j ∧ q.isLeader j = true := by
    intro j h1 h2 h3 h4
    have := (R.live_iff H).2 ⟨h2, h4⟩
    exact ⟨h1, this, (R.leader H this).trans h3⟩
  rcases R.data H g2 with h | ⟨_, x, hx, _, h⟩
  · rw [h]
    cases hd : inDup (roundMerges s) d.data with
    | false =>
      refine fin ((R.none_iff H).2 ⟨c1, fun x hx he => ?_⟩) c2 c3 hd
      rw [← he, H.dup_start hx] at hd; simp at hd
    | true =>
      exfalso
      obtain ⟨x, hx, h3, h4⟩ := inDup_iff.1 hd
      have hst := H.start_of_leader c2 c3 (mergeOk hx).dupIn h3 h4
      -- the jump ends a block before the duplicate
      obtain ⟨b, hb, b1, b2⟩ := H.block_of ⟨d, g1, l1⟩
      have hlast := H.block_last hb b1 b2 g1 (Single.branching hsd)
      obtain ⟨n, n1, n2⟩ := (mergeOk hx).preds
      have hpred : x.preds.any (fun b => b.2 - 1 == i) = true := by
        rw [List.any_eq_true]
        refine ⟨b, ?_, by rw [hlast]; simp⟩
        rw [n2]
        refine List.mem_filter.2 ⟨hb, ?_⟩
        rw [List.contains_iff_mem]
        unfold DState.succs
        rw [← hlast, g1]
        dsimp only
        rw [mem_foldl_addSucc_iff]
        right
        obtain ⟨e1, e2, e3⟩ := Single.iff.1 hsd
        rw [e1, e2, e3]
        simp only [Bool.false_eq_true, false_and, if_false, Bool.not_false, Bool.and_self, if_true]
        rw [List.mem_filterMap]
        refine ⟨_, List.mem_singleton.2 rfl, ?_⟩
        unfold effective InstData.staticJumpTarget
        rw [c1, Option.getD_none, hst]
        obtain ⟨n', n3, n4⟩ := instToBlock_start (mergeOk hx).dupIn
        rw [n3, s.prog.block_start_inj n4 n1 rfl]
      obtain ⟨y, hy, y1, y2⟩ := foldl_hit_pred (roundMerges s) (fun a ha b hb => H.canon_ne ha hb) i d.data
        ⟨x, hx, hst, hpred⟩
      have h5 := g2.data
      rw [hsd, y2, h, y1] at h5
      exact H.canon_ne hy hy h5.symm
  · rw [h]
    exact fin (R.canon_none H hx) (s.prog.blocks_ok.first _ (mergeOk hx).canonIn) (H.anch.start (mergeOk hx).canonIn)
      (H.canon_start hx)

end

theorem Exact.congr {m m' : Redirects} (h : ∀ t e, Ends m'.get t e ↔ Ends m.get t e) {p : Prog} (hp : Exact m p) :
    Exact m' p := by
  intro j d hd hj
  rw [hp j d hd hj]
  simp only [h]

/-- A round keeps the graph in shape. -/
theorem RoundOf.steady {s : DState} {q : Prog} {m m' : Redirects} {ai : AIState} (H : Steady s) (R : RoundOf s q m)
    {ks : List Nat} (hc : Compressed m m' ks) (hdir : ∀ k v, m'.get k = some v → m'.get v = none) :
    Steady { prog := q, redirects := m', ai } := by
  have heff : ∀ t, Ends m.get t (effective m' t) := by
    intro t
    rw [← hc.ends]
    unfold effective
    cases hg : m'.get t with
    | none => exact .stop hg
    | some w => exact .hop hg (.stop (hdir t w hg))
  have hnone : ∀ k, m'.get k = none ↔ m.get k = none := fun k => by
    have := hc.keys k
    cases h1 : m'.get k <;> cases h2 : m.get k <;> rw [h1, h2] at this <;> simp_all
  refine ⟨hc.earlier, hdir, fun k v hk => ?_, R.dyn, R.exact.congr hc.ends, R.anch H, fun j hj => ?_,
    fun i d' hi hl hs => ?_, fun i d' hi hl hs => ?_, fun i d' hi hl hm => ?_, fun i d' hi hj => ?_⟩
  · show ¬ LiveAt q.insts k
    rw [R.live_iff H]
    rintro ⟨h1, h2⟩
    have hnone' := hnone k
    have hn : m.get k ≠ none := fun h => by
      rw [show m'.get k = some v from hk] at hnone'
      exact absurd (hnone'.2 h) (by simp)
    refine hn ((R.none_iff H).2 ⟨?_, fun x hx he => ?_⟩)
    · cases hg : s.redirects.get k with
      | none => rfl
      | some w => exact absurd h1 (H.dead k w hg)
    · rw [← he, H.dup_start hx] at h2; simp at h2
  · obtain ⟨h1, h2⟩ := R.rj_old H hj
    refine (R.live_iff H).2 ⟨?_, h2⟩
    rcases h1 with h1 | ⟨x, hx, rfl⟩
    · exact H.alive j h1
    · exact s.prog.blocks_ok.first _ (mergeOk hx).canonIn
  · obtain ⟨c1, c2⟩ := R.clean H hi hl hs
    exact ⟨(hnone _).2 c1, c2⟩
  · obtain ⟨d, g1, g2⟩ := R.back hi
    obtain ⟨l1, l2⟩ := g2.live.1 hl
    have hsd := g2.single.symm.trans hs
    have hop : ∀ {j : Nat} {t : InstData}, s.prog.insts[j]? = some t → t.isJumpdest = true →
        ∃ t', q.insts[j]? = some t' ∧ t'.isJumpdest = true := by
      intro j t ht hj
      obtain ⟨t', a, b⟩ := R.inst _ t ht
      exact ⟨t', a, b.isJumpdest.trans hj⟩
    rcases R.data H g2 with h | ⟨_, x, hx, h1, h⟩
    · rw [h]
      rcases H.lands i d g1 l1 hsd with ⟨t, a, b⟩ | h
      · exact .inl (hop a b)
      · exact .inr h
    · rw [h]
      have hb := (mergeOk hx).before
      have hr := (s.prog.blocks_ok.range _ (mergeOk hx).canonIn).2.1
      rcases H.lands i d g1 l1 hsd with ⟨t, a, b⟩ | h
      · left
        obtain ⟨c, c1, _⟩ := s.prog.blocks_ok.first _ (mergeOk hx).canonIn
        refine hop c1 ?_
        unfold InstData.isJumpdest at b ⊢
        rw [H.first_op hx (h1 ▸ a) c1]; exact b
      · right; omega
  · obtain ⟨d, g1, g2⟩ := R.back hi
    obtain ⟨l1, l2⟩ := g2.live.1 hl
    have hmu : d.flags.multiJump = true := by rw [g2.flags] at hm; exact hm
    obtain ⟨m1, m2, m3, m4⟩ := H.multi i d g1 l1 hmu
    obtain ⟨r1, r2⟩ := R.multi i fun x hx hc => by
      rw [hc, H.dup_term hx] at l2; simp at l2
    refine ⟨g2.isStaticJump.trans m1, by rw [g2.flags]; exact m2, r1.trans m3, fun t ht => ?_⟩
    have hold : ∃ dt, s.prog.insts[effective s.redirects t]? = some dt ∧ dt.isJumpdest = true := by
      rcases (r2 t).1 ht with h | ⟨x, hx, h1, h2, h3⟩
      · exact m4 t h
      · obtain ⟨td, tc, t1, t2, t3, _⟩ := H.terms hx
        have hmu : td.flags.multiJump = true := by
          unfold flaggedMulti at h2; rw [t1] at h2; exact h2
        exact (H.multi _ _ t1 t3 hmu).2.2.2 t h3
    obtain ⟨dt, e1, e2⟩ := hold
    have : ∃ dt, s.prog.insts[effective m' t]? = some dt ∧ dt.isJumpdest = true := by
      rcases R.ends_cases H (heff t) with h | ⟨x, hx, h1, h2⟩
      · rw [h]; exact ⟨dt, e1, e2⟩
      · obtain ⟨c, c1, _⟩ := s.prog.blocks_ok.first _ (mergeOk hx).canonIn
        rw [h2]
        refine ⟨c, c1, ?_⟩
        unfold InstData.isJumpdest at e2 ⊢
        rw [H.first_op hx (h1 ▸ e1) c1]; exact e2
    obtain ⟨dt, f1, f2⟩ := this
    obtain ⟨dt', f3, f4⟩ := R.inst _ dt f1
    exact ⟨dt', f3, f4.isJumpdest.trans f2⟩
  · obtain ⟨d, g1, g2⟩ := R.back hi
    obtain ⟨j1, j2⟩ := H.jumps i d g1 (g2.isJump ▸ hj)
    rw [g2.flags]
    exact ⟨j1, j2⟩

/-- Every round and its refresh is a `RoundOf`. -/
theorem round_of {loc : AIState} {s b c : DState} {n : Nat} (H : Steady s) (h : s.once loc = some (b, n))
    (hc : b.refresh = some c) : ∃ m, RoundOf s c.prog m ∧ Compressed m c.redirects m.keys ∧
      (∀ k v, c.redirects.get k = some v → c.redirects.get v = none) ∧ c.ai = b.ai := by
  have he := once_earlier h H.earlier
  obtain ⟨m', c1, c2⟩ := compress_ok he
  have hcm := refresh_compress hc
  rw [hcm] at c1
  cases c1
  unfold DState.refresh at hc
  obtain ⟨q, q1, hc⟩ := Option.bind_eq_some_iff.1 hc
  obtain ⟨q2, q3, hc⟩ := Option.bind_eq_some_iff.1 hc
  obtain ⟨m2, m3, rfl⟩ := Option.map_eq_some_iff.1 hc
  obtain ⟨x1, x2, x3, x4, x5, x6⟩ := reachableR_exact he q1
  have hne : ∀ x ∈ roundMerges s, x.canon.1 ≠ x.dup.1 ∧ x.canon.2 - 1 ≠ x.dup.2 - 1 := by
    intro x hx
    have h1 := (mergeOk hx).before
    have h2 := (s.prog.blocks_ok.range _ (mergeOk hx).canonIn).2.1
    have h3 := (s.prog.blocks_ok.range _ (mergeOk hx).dupIn).2.1
    omega
  obtain ⟨g1, g2⟩ := mergeProgs_merged _ (once_prog h) hne
  have hrd : b.prog.recomputeHasDyn.insts = b.prog.insts := rfl
  have R : RoundOf s q b.redirects := by
    refine ⟨x3.trans g1, fun i d hd => ?_, fun j hj => ?_, fun x hx => ?_, fun k hk => ?_, x6, ?_⟩
    · obtain ⟨d1, e1, e2⟩ := g2 i d hd
      have hi : i < q.insts.length := by
        rw [x3, hrd]; exact (List.getElem?_eq_some_iff.1 e1).1
      obtain ⟨d2, r, e3, e4⟩ := x4 i _ (List.getElem?_eq_getElem hi)
      rw [hrd, e1] at e3; cases e3
      exact ⟨_, List.getElem?_eq_getElem hi, by rw [e4]; exact ⟨e2.op, e2.io, e2.gas, e2.flags, e2.data⟩⟩
    · have hm := mergeProgs_multi _ (once_prog h) (fun x hx y hy => ?_) (fun x hx y hy hxy => ?_) j hj
      · have hma : multiAt q j = multiAt b.prog j := by unfold multiAt; rw [x1]; rfl
        rw [x1, hma]; exact hm
      · intro hcc
        have a := H.canon_term hx
        rw [hcc, H.dup_term hy] at a; simp at a
      · have h1 := (s.prog.blocks_ok.range _ (mergeOk hx).dupIn).2.1
        have h2 := (s.prog.blocks_ok.range _ (mergeOk hy).dupIn).2.1
        have := block_disjoint (mergeOk hx).dupIn (mergeOk hy).dupIn (j := x.dup.2 - 1) (by omega) (by omega)
          (by omega) (by omega)
        rw [(merge_unique hx hy (by rw [this])).2]
    · rw [once_redirects h]
      exact insertAll_get_mem _ _ _ _ (roundMerges_edge hx) (fun w hw => roundEdges_fun (roundMerges_edge hx) hw)
    · rw [once_redirects h, insertAll_get_other]
      intro v hv
      obtain ⟨x, hx, hx1, _⟩ := edge_roundMerges hv
      exact hk x hx hx1
    · rw [x2]
      unfold Prog.recomputeHasDyn
      dsimp only
      rw [Bool.eq_iff_iff, List.any_eq_true, List.any_eq_true]
      constructor
      · rintro ⟨d, hd, hp⟩
        obtain ⟨i, hi⟩ := List.mem_iff_getElem?.1 hd
        have hi' : i < q.insts.length := by
          rw [x3, hrd]; exact (List.getElem?_eq_some_iff.1 hi).1
        obtain ⟨d2, r, e3, e4⟩ := x4 i _ (List.getElem?_eq_getElem hi')
        rw [hrd, hi] at e3; cases e3
        exact ⟨_, List.mem_of_getElem? (List.getElem?_eq_getElem hi'), by rw [e4]; exact hp⟩
      · rintro ⟨d, hd, hp⟩
        obtain ⟨i, hi⟩ := List.mem_iff_getElem?.1 hd
        obtain ⟨d2, r, e3, e4⟩ := x4 i _ hi
        exact ⟨d2, List.mem_of_getElem? e3, by rw [e4] at hp; exact hp⟩
  rw [(R.anch H).markDeadR] at q3
  cases q3
  have hdir : ∀ k v, m2.get k = some v → m2.get v = none := by
    intro k v hv
    refine c2.direct k ?_ v hv
    rw [AMap.mem_keys_iff]
    have := c2.keys k
    rw [show AMap.get _ k = some v from hv] at this
    exact Option.isSome_iff_exists.1 this.symm
  exact ⟨b.redirects, R, c2, hdir, rfl⟩

/-- Every round keeps the graph in shape. -/
theorem once_steady {loc : AIState} {s b c : DState} {n : Nat} (H : Steady s) (h : s.once loc = some (b, n))
    (hc : b.refresh = some c) : Steady c := by
  obtain ⟨m, R, h1, h2, h3⟩ := round_of H h hc
  exact R.steady (ai := c.ai) H h1 h2

theorem rounds_steady {loc : AIState} {s c : DState} (H : Steady s) (h : Rounds loc s c) : Steady c := by
  induction h with
  | start => exact H
  | round _ h1 h2 ih => exact once_steady ih h1 h2

end Verif
