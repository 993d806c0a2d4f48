import Verif.Lemmas.DedupInv
/-!
# Every block has a counterpart after deduplication
-/

namespace Verif
open Spec

/-- Two instructions with the same effect. -/
structure InstRel (code : Code) (x y : Nat × InstData) : Prop where
  opc : x.2.opcode = y.2.opcode
  pc : x.2.opcode = Verif.op.PC → x.2.data = y.2.data
  imm : (0x5f ≤ x.2.opcode.toNat ∧ x.2.opcode.toNat ≤ 0x7f) ∨
    (0xe6 ≤ x.2.opcode.toNat ∧ x.2.opcode.toNat ≤ 0xe8) → code.imm x.1 = code.imm y.1
  io : ¬ (0xe6 ≤ x.2.opcode.toNat ∧ x.2.opcode.toNat ≤ 0xe8) → x.2.stackIo = y.2.stackIo

theorem InstRel.refl (code : Code) (x : Nat × InstData) : InstRel code x x := ⟨rfl, fun _ => rfl, fun _ => rfl, fun _ => rfl⟩

theorem InstRel.symm {code : Code} {x y : Nat × InstData} (h : InstRel code x y) : InstRel code y x := by
  obtain ⟨h1, h2, h3, h4⟩ := h
  rw [h1] at h2 h3 h4
  exact ⟨h1.symm, fun h => (h2 h).symm, fun h => (h3 h).symm, fun h => (h4 h).symm⟩

theorem InstRel.trans {code : Code} {x y z : Nat × InstData} (h : InstRel code x y) (g : InstRel code y z) :
    InstRel code x z := by
  obtain ⟨h1, h2, h3, h4⟩ := h
  obtain ⟨g1, g2, g3, g4⟩ := g
  rw [← h1] at g2 g3 g4
  exact ⟨h1.trans g1, fun h => (h2 h).trans (g2 h), fun h => (h3 h).trans (g3 h), fun h => (h4 h).trans (g4 h)⟩

theorem SameEffect.rel {code : Code} {x y : Nat × InstData} (h : SameEffect code x y) : InstRel code x y :=
  ⟨h.1, fun hp => absurd (by rw [hp]; rfl) h.2.1, h.2.2.1, h.2.2.2⟩

theorem InstRel.step {code : Code} {x y : Nat × InstData} (h : InstRel code x y) {c c' : List Word}
    (hs : StackStep code.codeLen x.2.data x.2.opcode.toNat (code.imm x.1) x.2.stackIo.1 x.2.stackIo.2 c c') :
    StackStep code.codeLen y.2.data y.2.opcode.toNat (code.imm y.1) y.2.stackIo.1 y.2.stackIo.2 c c' := by
  by_cases hp : x.2.opcode = op.PC
  · have hn : x.2.opcode.toNat = 0x58 := by rw [hp]; rfl
    have hio := h.io (by rw [hn]; omega)
    rw [← h.opc, ← h.pc hp, ← hio]
    rw [hn] at hs ⊢
    cases hs with
    | push c h1 h2 => omega
    | dup c w h1 h2 => omega
    | swap a b m r h1 h2 => omega
    | dupn c w n h1 => omega
    | swapn a b m r h1 => omega
    | exchange a b p m r h1 => omega
    | pure args r w h1 => exact .pure args r w h1
    | other args res r h1 h2 h3 h4 h5 => exact .other args res r h1 h2 h3 h4 h5
  · exact SameEffect.step ⟨h.opc, fun hc => hp (UInt8.toNat_inj.1 hc), h.imm, h.io⟩ hs

theorem Matched.imp {α : Type} {R S : α → α → Prop} (h : ∀ a b, R a b → S a b) {a b : List α}
    (hm : Matched R a b) : Matched S a b := by
  induction hm with
  | nil => exact .nil
  | cons h1 _ ih => exact .cons (h _ _ h1) ih

theorem Matched.trans {α : Type} {R : α → α → Prop} (h : ∀ a b c, R a b → R b c → R a c) {a b : List α}
    (hm : Matched R a b) : ∀ {c : List α}, Matched R b c → Matched R a c := by
  induction hm with
  | nil => intro c hc; exact hc
  | cons h1 _ ih =>
    intro c hc
    cases hc with
    | cons h2 h3 => exact .cons (h _ _ _ h1 h2) (ih h3)

theorem Matched.length {α : Type} {R : α → α → Prop} {a b : List α} (hm : Matched R a b) : a.length = b.length := by
  induction hm with
  | nil => rfl
  | cons _ _ ih => simp [ih]

theorem instRel_exec {code : Code} {a b : List (Nat × InstData)} (h : Matched (InstRel code) a b) :
    ∀ c c', Exec code a c c' → Exec code b c c' := by
  induction h with
  | nil => intro c c' h; exact h
  | cons h _ ih =>
    intro c c' hx
    rw [exec_cons_iff] at hx ⊢
    obtain ⟨c1, h1, h2⟩ := hx
    exact ⟨c1, h.step h1, ih _ _ h2⟩

/-- The ends of two blocks lead to the same places. -/
structure TermRel (m : Redirects) (p : Prog) (i : Nat) (d : InstData) (p' : Prog) (i' : Nat) (d' : InstData) : Prop where
  op : d'.opcode = d.opcode
  fall : d'.canFallThrough = d.canFallThrough
  jump : d.isJump = true → d'.flags.staticJump = d.flags.staticJump ∧ d'.flags.invalidJump = d.flags.invalidJump ∧
    d'.flags.multiJump = d.flags.multiJump ∧ d'.hasConstJumpiCondition = d.hasConstJumpiCondition
  single : Single d = true → ∀ e, Ends m.get d.data e ↔ Ends m.get d'.data e
  multi : d.isJump = true → d.flags.multiJump = true → ∀ t ∈ multiAt p i, t ∈ multiAt p' i'

/-- A block and its counterpart. -/
structure BlockRel (code : Code) (m : Redirects) (p : Prog) (b : Nat × Nat) (p' : Prog) (b' : Nat × Nat) : Prop where
  start : Ends m.get b.1 b'.1
  body : Matched (InstRel code) (p.blockInsts b) (p'.blockInsts b')
  term : ∃ d d', p.insts[b.2 - 1]? = some d ∧ p'.insts[b'.2 - 1]? = some d' ∧
    TermRel m p (b.2 - 1) d p' (b'.2 - 1) d' ∧ (d.canFallThrough = true → b' = b)

theorem TermRel.single_eq {m : Redirects} {p p' : Prog} {i i' : Nat} {d d' : InstData} (h : TermRel m p i d p' i' d') :
    Single d' = Single d := by
  have hj : d'.isJump = d.isJump := by unfold InstData.isJump; rw [h.op]
  unfold Single InstData.isStaticJump
  rw [hj]
  cases hd : d.isJump with
  | false => rfl
  | true =>
    obtain ⟨h1, h2, h3, _⟩ := h.jump hd
    rw [h1, h2, h3]

theorem BlockRel.trans {code : Code} {m m' : Redirects} {p p1 p2 : Prog} {b b1 b2 : Nat × Nat}
    (hm : ∀ a e, Ends m.get a e → ∀ x, Ends m'.get a x ↔ Ends m'.get e x) (hmt : ∀ a, ∃ e, Ends m.get a e)
    (h : BlockRel code m p b p1 b1) (g : BlockRel code m' p1 b1 p2 b2) : BlockRel code m' p b p2 b2 := by
  obtain ⟨d, d1, a1, a2, a3, a4⟩ := h.term
  obtain ⟨d1', d2, c1, c2, c3, c4⟩ := g.term
  rw [a2] at c1; cases c1
  refine ⟨(hm _ _ h.start _).2 g.start, Matched.trans (R := InstRel code) (fun _ _ _ a b => a.trans b) h.body g.body, d, d2, a1, c2, ?_, fun hf => ?_⟩
  · have hj : d1.isJump = d.isJump := by unfold InstData.isJump; rw [a3.op]
    refine ⟨c3.op.trans a3.op, c3.fall.trans a3.fall, fun hd => ?_, fun hs e => ?_, fun hd hmu t ht => ?_⟩
    · obtain ⟨x1, x2, x3, x4⟩ := a3.jump hd
      obtain ⟨y1, y2, y3, y4⟩ := c3.jump (hj.trans hd)
      exact ⟨y1.trans x1, y2.trans x2, y3.trans x3, y4.trans x4⟩
    · obtain ⟨w, hw⟩ := hmt d.data
      rw [hm _ _ hw, ← hm _ _ ((a3.single hs w).1 hw)]
      exact c3.single (a3.single_eq.trans hs) e
    · exact c3.multi (hj.trans hd) ((a3.jump hd).2.2.1.trans hmu) t (a3.multi hd hmu t ht)
  · have := c4 (a3.fall.trans hf)
    rw [this, a4 hf]

theorem TermRel.refl (m : Redirects) (p : Prog) (i : Nat) (d : InstData) : TermRel m p i d p i d :=
  ⟨rfl, rfl, fun _ => ⟨rfl, rfl, rfl, rfl⟩, fun _ _ => Iff.rfl, fun _ _ _ h => h⟩

theorem Merged.plain {ms : List Merge} {i : Nat} {d d' : InstData} (h : Merged ms i d d')
    (hd : d'.data = d.data ∨ Single d = true) (hp : Plain d) : Plain d' := by
  intro hi
  rw [h.op] at hi
  rcases hd with hd | hd
  · rw [hd]; exact hp hi
  · have := not_jump_of_imm hi
    rw [Single.iff] at hd
    rw [hd.1] at this; simp at this

/-- The last instruction of a block. -/
theorem blockInsts_last {p : Prog} {x : Nat × Nat} (hx : x ∈ p.blocks) : ∃ pre t, p.insts[x.2 - 1]? = some t ∧
    p.blockInsts x = pre ++ [(x.2 - 1, t)] := by
  obtain ⟨t, ht, _⟩ := p.blocks_ok.last x hx
  have hr := (p.blocks_ok.range x hx).2.1
  refine ⟨p.slice x.1 (x.2 - x.1 - 1), t, ht, ?_⟩
  unfold Prog.blockInsts Prog.slice
  have hsplit : x.2 - x.1 = (x.2 - x.1 - 1) + 1 := by omega
  rw [hsplit, List.range'_concat, List.filterMap_append]
  simp only [Nat.one_mul, List.filterMap_cons, List.filterMap_nil]
  have hidx : x.1 + (x.2 - x.1 - 1) = x.2 - 1 := by omega
  rw [hidx, ht]
  rfl

section
variable {s : DState} {q : Prog} {m m' : Redirects} (H : Steady s) (R : RoundOf s q m)
include H R

/-- The body of a block after a round. -/
theorem RoundOf.body (code : Code) (b : Nat × Nat) : Matched (InstRel code) (s.prog.blockInsts b) (q.blockInsts b) := by
  refine matched_of_map (fun x => (x.1, x.2.opcode, x.2.stackIo, if x.2.isJump then 0 else x.2.data)) _ _ ?_ ?_
  · unfold Prog.blockInsts Prog.slice
    rw [List.map_filterMap, List.map_filterMap]
    congr 1
    funext i
    cases hg : s.prog.insts[i]? with
    | none =>
      rw [List.getElem?_eq_none_iff] at hg
      rw [List.getElem?_eq_none_iff.2 (by rw [R.len]; exact hg)]
    | some d =>
      obtain ⟨d', h1, h2⟩ := R.inst _ d hg
      rw [h1]
      simp only [Option.map_some, h2.op, h2.io, h2.isJump]
      cases hj : d.isJump with
      | true => rfl
      | false =>
        rcases R.data H h2 with h | ⟨h, _⟩
        · rw [h]
        · rw [Single.iff] at h
          unfold InstData.isStaticJump at h
          rw [hj] at h; simp at h
  · intro x hx y hy hxy
    simp only [Prod.mk.injEq] at hxy
    obtain ⟨h1, h2, h3, h4⟩ := hxy
    refine ⟨h2, fun hp => ?_, fun _ => by rw [h1], fun _ => h3⟩
    have hj : x.2.isJump = false := by unfold InstData.isJump; rw [hp]; decide
    have hj' : y.2.isJump = false := by unfold InstData.isJump; rw [← h2, hp]; decide
    rw [hj, hj'] at h4
    simpa using h4

/-- The end of a surviving block after a round. -/
theorem RoundOf.term (hc : ∀ t e, Ends m'.get t e ↔ Ends m.get t e) {i : Nat} {d : InstData}
    (hi : s.prog.insts[i]? = some d) (hn : inDup (roundMerges s) i = false) :
    ∃ d', q.insts[i]? = some d' ∧ TermRel m' s.prog i d q i d' := by
  obtain ⟨d', g1, g2⟩ := R.inst _ d hi
  refine ⟨d', g1, g2.op, g2.canFall, fun _ => ?_, fun hs e => ?_, fun _ _ t ht => ?_⟩
  · unfold InstData.hasConstJumpiCondition
    rw [g2.op, g2.flags]
    exact ⟨rfl, rfl, rfl, rfl⟩
  · rcases R.data H g2 with h | ⟨_, x, hx, h1, h2⟩
    · rw [h]
    · rw [h1, h2, hc, hc]
      exact ends_hop_iff (R.edge x hx) e
  · refine ((R.multi i fun x hx hcc => ?_).2 t).2 (.inl ht)
    rw [hcc, H.dup_term hx] at hn; simp at hn

/-- Every block has a counterpart after a round. -/
theorem RoundOf.counterpart (hc : ∀ t e, Ends m'.get t e ↔ Ends m.get t e) {code : Code}
    (hdec : Decoded code s.prog.insts)
    (hplain : ∀ (i : Nat) d, s.prog.insts[i]? = some d → d.flags.deadCode = false → Plain d) {b : Nat × Nat}
    (hb : b ∈ s.prog.blocks) : ∃ b' ∈ q.blocks, BlockRel code m' s.prog b q b' := by
  have hlen := (s.prog.blocks_ok.range _ hb).2.1
  obtain ⟨d, hd, hdl⟩ := s.prog.blocks_ok.last _ hb
  by_cases hdup : ∃ x ∈ roundMerges s, b = x.dup
  · obtain ⟨x, hx, rfl⟩ := hdup
    have ho := mergeOk hx
    have hcl := (s.prog.blocks_ok.range _ ho.canonIn).2.1
    obtain ⟨td, tc, t1, t2, t3, t4, t5, t6, t7, t8, t9, t10, t11⟩ := H.terms hx
    obtain ⟨tc', u1, u2⟩ := R.term (m' := m') H hc t2 (H.canon_term hx)
    obtain ⟨k, k1, k2⟩ := ho.key
    obtain ⟨_, _, _, _, _, _, v1, _, v2, _⟩ := key_spec k1
    obtain ⟨_, _, _, _, _, _, _, _, w2, _⟩ := key_spec k2
    have hpl : ∀ y ∈ s.prog.blocks, ∀ z ∈ s.prog.blockInsts y, Plain z.2 := by
      intro y hy z hz
      obtain ⟨z1, z2, z3⟩ := mem_slice hz
      have hyr := (s.prog.blocks_ok.range _ hy).2.1
      obtain ⟨e, e1, e2⟩ := H.anch.block_live hy z2 (by omega)
      rw [z1] at e1; cases e1
      exact hplain _ _ z1 e2
    have hshape := fingerprint_inj _ _ (hpl _ ho.dupIn) (hpl _ ho.canonIn) (v2.symm.trans w2)
    have hop : tc.opcode = td.opcode := by
      obtain ⟨p1, y1, g1, g2⟩ := blockInsts_last ho.dupIn
      obtain ⟨p2, y2, g3, g4⟩ := blockInsts_last ho.canonIn
      rw [t1] at g1; cases g1
      rw [t2] at g3; cases g3
      rw [g2, g4, List.map_append, List.map_append] at hshape
      have := (List.append_inj' hshape rfl).2
      simp only [List.map_cons, List.map_nil, List.cons.injEq, and_true] at this
      exact (congrArg Prod.fst this).symm
    have hjj : tc.isJump = td.isJump := by unfold InstData.isJump; rw [hop]
    have T : TermRel m' s.prog (x.dup.2 - 1) td q (x.canon.2 - 1) tc' := by
      refine ⟨u2.op.trans hop, u2.fall.trans (t6.trans t5.symm), fun hj => ?_, fun hs e => ?_, fun hj hmu t ht => ?_⟩
      · obtain ⟨y1, y2, y3, y4⟩ := u2.jump (hjj.trans hj)
        have hst := t7 hj
        have hsc := t8 (hjj.trans hj)
        have hinv : tc.flags.invalidJump = td.flags.invalidJump := by
          cases hmu : td.flags.multiJump with
          | true =>
            rw [(H.multi _ _ t1 t3 hmu).2.1, (H.multi _ _ t2 t4 (t9.trans hmu)).2.1]
          | false =>
            have h1 : Single td = !td.flags.invalidJump := by
              unfold Single InstData.isStaticJump; rw [hj, hst, hmu]; simp
            have h2 : Single tc = !tc.flags.invalidJump := by
              unfold Single InstData.isStaticJump; rw [hjj.trans hj, hsc, t9.trans hmu]; simp
            rw [h1, h2, ← Bool.eq_iff_iff] at t10
            rw [← Bool.not_not tc.flags.invalidJump, ← t10, Bool.not_not]
        have hcon : tc.hasConstJumpiCondition = td.hasConstJumpiCondition := by
          by_cases hji : td.opcode = op.JUMPI
          · have hcj : ∀ e : InstData, e.opcode = op.JUMPI → e.flags.disabled = false → e.flags.unknown = false →
                e.canFallThrough = false → e.hasConstJumpiCondition = true := by
              intro e h1 h2 h3 h4
              unfold InstData.canFallThrough InstData.isDiverging at h4
              rw [h1, h2, h3] at h4
              cases hcc : e.hasConstJumpiCondition with
              | true => rfl
              | false =>
                rw [hcc] at h4
                have e1 : (op.JUMPI == op.JUMP) = false := by decide
                have e2 : [op.STOP, op.RETURN, op.REVERT, op.INVALID, op.SELFDESTRUCT].contains op.JUMPI = false := by
                  decide
                rw [e1, e2, bne, e1] at h4
                simp at h4
            obtain ⟨j1, j2⟩ := H.jumps _ _ t1 hj
            obtain ⟨j3, j4⟩ := H.jumps _ _ t2 (hjj.trans hj)
            rw [hcj td hji j1 j2 t5, hcj tc (hop.trans hji) j3 j4 t6]
          · have hf : (td.opcode == op.JUMPI) = false := by simpa using hji
            unfold InstData.hasConstJumpiCondition
            rw [hop, hf]; rfl
        exact ⟨y1.trans (hsc.trans hst.symm), y2.trans hinv, y3.trans t9, y4.trans hcon⟩
      · rw [← t11 hs]
        exact u2.single (t10.1 hs) e
      · obtain ⟨r1, r2⟩ := R.multi (x.canon.2 - 1) fun y hy hcc => by
          have a := H.canon_term hx
          rw [hcc, H.dup_term hy] at a; simp at a
        refine (r2 t).2 (.inr ⟨x, hx, rfl, ?_, ht⟩)
        unfold flaggedMulti; rw [t1]; exact hmu
    refine ⟨x.canon, (R.blocks H).2 ⟨ho.canonIn, fun y hy => canon_ne_dup hx hy⟩,
      (hc _ _).2 (.hop (R.edge x hx) (.stop (R.canon_none H hx))), ?_, td, tc', t1, u1, T, fun hf => ?_⟩
    · refine Matched.trans (R := InstRel code) (fun _ _ _ a b => a.trans b) ?_ (R.body H code x.canon)
      refine matched_of_map (fun x => shape x.2) _ _ hshape (fun y hy z hz hyz => ?_)
      exact (sameEffect_of_shape hdec (mem_slice hy).1 (mem_slice hz).1 hyz (v1 y hy)).rel
    · rw [t5] at hf; simp at hf
  · have hne : ∀ x ∈ roundMerges s, b ≠ x.dup := fun x hx he => hdup ⟨x, hx, he⟩
    have hk := H.kept hb hne (j := b.2 - 1) (by omega) (by omega)
    have hk0 := H.kept hb hne (j := b.1) (Nat.le_refl _) hlen
    obtain ⟨d', u1, u2⟩ := R.term (m' := m') H hc hd hk
    refine ⟨b, (R.blocks H).2 ⟨hb, hne⟩, (hc _ _).2 (.stop ((R.none_iff H).2 ⟨?_, fun x hx he => ?_⟩)),
      R.body H code b, d, d', hd, u1, u2, fun _ => rfl⟩
    · cases hg : s.redirects.get b.1 with
      | none => rfl
      | some v => exact absurd (s.prog.blocks_ok.first _ hb) (H.dead _ _ hg)
    · rw [← he, H.dup_start hx] at hk0; simp at hk0

end

theorem BlockRel.refl (code : Code) (p : Prog) (m : Redirects) {b : Nat × Nat} (hb : b ∈ p.blocks)
    (hm : m.get b.1 = none) : BlockRel code m p b p b := by
  obtain ⟨d, hd, _⟩ := p.blocks_ok.last _ hb
  refine ⟨.stop hm, ?_, d, d, hd, hd, .refl _ _ _ _, fun _ => rfl⟩
  generalize p.blockInsts b = l
  induction l with
  | nil => exact .nil
  | cons x l ih => exact .cons (.refl _ _) ih

theorem RoundOf.plain {s : DState} {q : Prog} {m : Redirects} (H : Steady s) (R : RoundOf s q m)
    (hplain : ∀ (i : Nat) d, s.prog.insts[i]? = some d → d.flags.deadCode = false → Plain d) :
    ∀ (i : Nat) d, q.insts[i]? = some d → d.flags.deadCode = false → Plain d := by
  intro i d' hd' hl
  obtain ⟨d, g1, g2⟩ := R.back hd'
  exact g2.plain ((R.data H g2).imp id (·.1)) (hplain i d g1 (g2.live.1 hl).1)

theorem RoundOf.decoded {s : DState} {q : Prog} {m : Redirects} (H : Steady s) (R : RoundOf s q m) {code : Code}
    (hd : Decoded code s.prog.insts) : Decoded code q.insts := by
  obtain ⟨io, val, hv⟩ := hd
  refine ⟨io, val, fun i d' hd' => ?_⟩
  obtain ⟨d, g1, g2⟩ := R.back hd'
  obtain ⟨h1, h2, h3⟩ := hv i d g1
  rw [g2.op, g2.io]
  refine ⟨h1, fun hc => ?_, h3⟩
  rcases R.data H g2 with h | ⟨h, _⟩
  · rw [h]; exact h2 hc
  · have := not_jump_of_imm ((carriesImm_iff _).1 hc)
    rw [Single.iff] at h
    rw [h.1] at this; simp at this

/-- Every block has a counterpart after any number of rounds. -/
theorem rounds_counterpart {loc : AIState} {s c : DState} (H : Steady s) {code : Code}
    (hdec : Decoded code s.prog.insts)
    (hplain : ∀ (i : Nat) d, s.prog.insts[i]? = some d → d.flags.deadCode = false → Plain d)
    (h : Rounds loc s c) : Steady c ∧ Decoded code c.prog.insts ∧
      (∀ (i : Nat) d, c.prog.insts[i]? = some d → d.flags.deadCode = false → Plain d) ∧
      ∀ b ∈ s.prog.blocks, ∃ b' ∈ c.prog.blocks, BlockRel code c.redirects s.prog b c.prog b' := by
  induction h with
  | start =>
    refine ⟨H, hdec, hplain, fun b hb => ⟨b, hb, .refl _ _ _ hb ?_⟩⟩
    cases hg : s.redirects.get b.1 with
    | none => rfl
    | some v => exact absurd (s.prog.blocks_ok.first _ hb) (H.dead _ _ hg)
  | @round a b c n _ h1 h2 ih =>
    obtain ⟨Ha, da, pa, ca⟩ := ih
    obtain ⟨m, R, hc1, hc2, _⟩ := round_of Ha h1 h2
    refine ⟨R.steady (ai := c.ai) Ha hc1 hc2, R.decoded Ha da, R.plain Ha pa, fun x hx => ?_⟩
    obtain ⟨x1, hx1, r1⟩ := ca x hx
    obtain ⟨x2, hx2, r2⟩ := R.counterpart Ha hc1.ends da pa hx1
    refine ⟨x2, hx2, r1.trans (fun p e he y => ?_) (fun p => ?_) r2⟩
    · rw [(Steady.ends_eff Ha R).1 he, hc1.ends, hc1.ends]
      exact R.ends_eff Ha p y
    · exact ⟨_, (Steady.ends_eff Ha R).2 rfl⟩

end Verif
