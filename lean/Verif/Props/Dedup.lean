import Verif.Lemmas.DedupSame
import Verif.Props.Redirect
import Verif.Lemmas.DedupParse
/-!
# C18: merged blocks behave identically
-/

namespace Verif
open Spec

/-- The state deduplication starts from and returns to after each refresh: redirects are compressed and
lead away from dead instructions, the targets of live jumps resolve to block starts, and jumps with
several targets are valid static jumps with the targets recorded. -/
structure Settled (s : DState) : Prop where
  direct : ∀ k v, s.redirects.get k = some v → s.redirects.get v = none
  dead : ∀ k v, s.redirects.get k = some v → ¬ LiveAt s.prog.insts k
  starts : ∀ (i : Nat) d, s.prog.insts[i]? = some d → d.flags.deadCode = false → d.isStaticJump = true →
    d.flags.invalidJump = false → d.flags.multiJump = false →
    ∃ x ∈ s.prog.blocks, effective s.redirects d.staticJumpTarget = x.1
  multi : ∀ (i : Nat) d, s.prog.insts[i]? = some d → d.flags.deadCode = false → d.flags.multiJump = true →
    d.flags.invalidJump = false ∧ (s.prog.multi.lookup i).isSome = true
  jumps : ∀ (i : Nat) d, s.prog.insts[i]? = some d → d.isJump = true →
    d.flags.disabled = false ∧ d.flags.unknown = false

/-! ## The redirects of a round -/

theorem insertAll_get_other (l : List (Nat × Nat)) : ∀ (m : Redirects) (k : Nat), (∀ v, (k, v) ∉ l) →
    (insertAll m l).get k = m.get k := by
  induction l with
  | nil => intro m k _; rfl
  | cons e l ih =>
    intro m k h
    show (insertAll (m.insert e.1 e.2) l).get k = _
    rw [ih _ k (fun v hv => h v (List.mem_cons_of_mem _ hv)), AMap.get_insert, if_neg]
    intro hk
    exact h e.2 (by rw [hk]; exact List.mem_cons_self)

theorem insertAll_get_mem (l : List (Nat × Nat)) : ∀ (m : Redirects) (k v : Nat), (k, v) ∈ l →
    (∀ v', (k, v') ∈ l → v' = v) → (insertAll m l).get k = some v := by
  induction l with
  | nil => intro m k v h; simp at h
  | cons e l ih =>
    intro m k v h hu
    show (insertAll (m.insert e.1 e.2) l).get k = _
    by_cases hin : ∃ v', (k, v') ∈ l
    · obtain ⟨v', hv'⟩ := hin
      have := hu v' (List.mem_cons_of_mem _ hv')
      subst this
      exact ih _ k v' hv' (fun w hw => hu w (List.mem_cons_of_mem _ hw))
    · rw [insertAll_get_other l _ k (fun w hw => hin ⟨w, hw⟩), AMap.get_insert]
      rcases List.mem_cons.1 h with rfl | h
      · rw [if_pos rfl]
      · exact absurd ⟨v, h⟩ hin

/-- The redirects a round adds. -/
def roundEdges (s : DState) : List (Nat × Nat) :=
  ((s.groups s.prog.blocks).map (·.2)).flatMap (groupEdges s.prog.blocks)

theorem mem_groupEdges {bs : List (Nat × Nat)} {g : List Nat} {e : Nat × Nat} (h : e ∈ groupEdges bs g) :
    ∃ c b x y, g.head? = some c ∧ b ∈ g.tail ∧ bs[b]? = some x ∧ bs[c]? = some y ∧ e = (x.1, y.1) := by
  match g, h with
  | [], h => simp [groupEdges] at h
  | [_], h => simp [groupEdges] at h
  | c :: d :: rest, h =>
    obtain ⟨b, hb, hx⟩ := List.mem_filterMap.1 h
    cases h1 : bs[b]? with
    | none => rw [h1] at hx; simp at hx
    | some x =>
      cases h2 : bs[c]? with
      | none => rw [h1, h2] at hx; simp at hx
      | some y =>
        rw [h1, h2] at hx
        cases hx
        exact ⟨c, b, x, y, rfl, hb, h1, h2, rfl⟩

theorem mem_roundEdges {s : DState} {e : Nat × Nat} (h : e ∈ roundEdges s) :
    ∃ g ∈ s.groups s.prog.blocks, ∃ c b x y, g.2.head? = some c ∧ b ∈ g.2.tail ∧
      s.prog.blocks[b]? = some x ∧ s.prog.blocks[c]? = some y ∧ e = (x.1, y.1) := by
  obtain ⟨g, hg, he⟩ := List.mem_flatMap.1 h
  obtain ⟨g', hg', rfl⟩ := List.mem_map.1 hg
  exact ⟨g', hg', mem_groupEdges he⟩

theorem Prog.block_start_inj (p : Prog) {a b : Nat} {x y : Nat × Nat} (hx : p.blocks[a]? = some x)
    (hy : p.blocks[b]? = some y) (h : x.1 = y.1) : a = b := by
  have h1 := (p.blocks_ok.range x (List.mem_of_getElem? hx)).2.1
  have h2 := (p.blocks_ok.range y (List.mem_of_getElem? hy)).2.1
  rcases Nat.lt_trichotomy a b with hab | hab | hab
  · have := p.blocks_lt hx hy hab; omega
  · exact hab
  · have := p.blocks_lt hy hx hab; omega

theorem group_unique {s : DState} {g g' : DedupKey × List Nat} (hg : g ∈ s.groups s.prog.blocks)
    (hg' : g' ∈ s.groups s.prog.blocks) {b : Nat} (hb : b ∈ g.2) (hb' : b ∈ g'.2) : g = g' := by
  have h := groups_ok s s.prog.blocks
  have hd := h.distinct
  obtain ⟨x, h1, h2⟩ := h.keys g hg b hb
  obtain ⟨y, h3, h4⟩ := h.keys g' hg' b hb'
  rw [h1] at h3; cases h3
  rw [h2] at h4
  have hk : g.1 = g'.1 := Option.some.inj h4
  obtain ⟨i, hi, rfl⟩ := List.mem_iff_getElem.1 hg
  obtain ⟨j, hj, rfl⟩ := List.mem_iff_getElem.1 hg'
  rw [List.pairwise_iff_getElem] at hd
  rcases Nat.lt_trichotomy i j with hij | hij | hij
  · exact absurd hk (hd i j hi hj hij)
  · subst hij; rfl
  · exact absurd hk.symm (hd j i hj hi hij)

theorem roundEdges_fun {s : DState} {k v v' : Nat} (h : (k, v) ∈ roundEdges s) (h' : (k, v') ∈ roundEdges s) :
    v' = v := by
  obtain ⟨g, hg, c, b, x, y, h1, h2, h3, h4, h5⟩ := mem_roundEdges h
  obtain ⟨g', hg', c', b', x', y', h1', h2', h3', h4', h5'⟩ := mem_roundEdges h'
  rw [Prod.mk.injEq] at h5 h5'
  have := s.prog.block_start_inj h3 h3' (h5.1.symm.trans h5'.1)
  subst this
  have := group_unique hg hg' (List.mem_of_mem_tail h2) (List.mem_of_mem_tail h2')
  subst this
  rw [h1] at h1'; cases h1'
  rw [h4] at h4'; cases h4'
  rw [h5.2, h5'.2]

theorem once_redirects {loc : AIState} {s s' : DState} {n : Nat} (h : s.once loc = some (s', n)) :
    s'.redirects = insertAll s.redirects (roundEdges s) := by
  unfold DState.once at h
  dsimp only at h
  obtain ⟨s1, h1, h2⟩ := Option.map_eq_some_iff.1 h
  have hs : s1 = s' := congrArg Prod.fst h2
  subst hs
  exact mergeGroups_redirects _ h1

theorem ends_hop_iff {m : Nat → Option Nat} {t n : Nat} (h : m t = some n) (e : Nat) :
    Ends m t e ↔ Ends m n e := by
  constructor
  · intro h1
    cases h1 with
    | stop h2 => rw [h] at h2; simp at h2
    | hop h2 h3 => rw [h] at h2; cases h2; exact h3
  · exact .hop h

theorem ends_hops {m : Nat → Option Nat} {E : List (Nat × Nat)} (hE : ∀ e ∈ E, m e.1 = some e.2) {a b : Nat}
    (h : Hops E a b) (e : Nat) : Ends m a e ↔ Ends m b e := by
  induction h with
  | refl => exact Iff.rfl
  | step _ h2 ih => exact ih.trans (ends_hop_iff (hE _ h2) e)

/-! ## What the key of a block says -/

theorem key_spec {s : DState} {bs : List (Nat × Nat)} {x : Nat × Nat} {k : DedupKey}
    (h : s.key bs x = some k) : ∃ term first, s.prog.insts[x.2 - 1]? = some term ∧
      s.prog.insts[x.1]? = some first ∧ term.canFallThrough = false ∧
      (s.prog.hasDyn && first.isReachableJumpdest true) = false ∧
      (∀ y ∈ s.prog.blockInsts x, y.2.opcode ≠ op.PC) ∧
      (term.isJump = true → term.flags.staticJump = true) ∧
      k.fingerprint = fingerprint (s.prog.blockInsts x) ∧ k.succs = s.succs bs x ∧
      k.isMulti = term.flags.multiJump := by
  unfold DState.key at h
  cases h1 : s.prog.insts[x.2 - 1]? with
  | none => rw [h1] at h; simp at h
  | some t =>
    cases h2 : s.prog.insts[x.1]? with
    | none => rw [h1, h2] at h; simp at h
    | some f =>
      rw [h1, h2] at h
      dsimp only at h
      by_cases c1 : t.canFallThrough = true
      · rw [if_pos c1] at h; simp at h
      rw [if_neg c1] at h
      by_cases c2 : (s.prog.hasDyn && f.isReachableJumpdest true) = true
      · rw [if_pos c2] at h; simp at h
      rw [if_neg c2] at h
      by_cases c3 : ((s.prog.blockInsts x).any fun x => x.2.opcode == op.PC) = true
      · rw [if_pos c3] at h; simp at h
      rw [if_neg c3] at h
      by_cases c4 : (t.isJump && !t.flags.staticJump) = true
      · rw [if_pos c4] at h; simp at h
      rw [if_neg c4] at h
      by_cases c5 : (fingerprint (s.prog.blockInsts x)).isEmpty = true
      · rw [if_pos c5] at h; simp at h
      rw [if_neg c5] at h
      cases h
      refine ⟨t, f, rfl, rfl, by simpa using c1, by simpa using c2, fun y hy hp => c3 ?_, fun hj => ?_, rfl,
        rfl, rfl⟩
      · rw [List.any_eq_true]
        exact ⟨y, hy, by rw [hp]; rfl⟩
      · rw [hj] at c4
        simpa using c4

/-- The successors of a block ending in a jump with one target. -/
theorem succs_single {s : DState} {bs : List (Nat × Nat)} {x : Nat × Nat} {t : InstData}
    (ht : s.prog.insts[x.2 - 1]? = some t) (hf : t.canFallThrough = false) (hm : t.flags.multiJump = false)
    (hj : t.isStaticJump = true) :
    s.succs bs x = if t.flags.invalidJump then []
      else (instToBlock bs (effective s.redirects t.staticJumpTarget)).toList := by
  unfold DState.succs
  rw [ht]
  dsimp only
  rw [hf, hm, hj]
  simp only [Bool.false_eq_true, false_and, if_false, Bool.true_and]
  cases hi : t.flags.invalidJump with
  | true => simp
  | false =>
    simp only [Bool.not_false, if_true, Bool.false_eq_true, if_false]
    rw [List.filterMap_cons, List.filterMap_nil]
    cases instToBlock bs (effective s.redirects t.staticJumpTarget) <;> simp [addSucc]

theorem instToBlock_start {p : Prog} {x : Nat × Nat} (hx : x ∈ p.blocks) :
    ∃ b, instToBlock p.blocks x.1 = some b ∧ p.blocks[b]? = some x := by
  obtain ⟨b, hb, rfl⟩ := List.mem_iff_getElem.1 hx
  have hr := p.blocks_ok.range _ hx
  refine ⟨b, (instToBlock_iff p _ b).2 ⟨_, List.getElem?_eq_getElem hb, Nat.le_refl _, hr.2.1⟩,
    List.getElem?_eq_getElem hb⟩

/-- The generated code's destination at a jump that does not fall through. -/
theorem compiledNext_noFall {p : Prog} {code : Code} {i : Nat} {d : InstData} {c : List Word}
    (hf : d.canFallThrough = false) (hdis : d.flags.disabled = false) (hunk : d.flags.unknown = false) :
    p.compiledNext code i d c =
      if d.flags.invalidJump then none
      else if d.flags.multiJump then
        (code.target (c.headD 0)).filter fun t => ((p.multi.lookup i).getD []).contains t
      else if d.flags.staticJump then some d.staticJumpTarget
      else code.target (c.headD 0) := by
  unfold Prog.compiledNext
  dsimp only
  rw [if_neg]
  rintro ⟨ho, hc⟩
  unfold InstData.canFallThrough InstData.isDiverging at hf
  rw [hdis, hunk, ho] at hf
  simp only [Bool.not_eq_true] at hc
  rw [hc] at hf
  revert hf
  simp only [Bool.or_false, Bool.not_false, Bool.and_true]
  have : (op.JUMPI == op.JUMP) = false := by decide
  rw [this]
  have h2 : [op.STOP, op.RETURN, op.REVERT, op.INVALID, op.SELFDESTRUCT].contains op.JUMPI = false := by decide
  rw [h2]
  have h3 : (op.JUMPI != op.JUMP) = true := by decide
  rw [h3]
  simp

/-- C18, on blocks whose immediates can be told apart in the fingerprint (`Plain`; without it the claim
is false, `C18_merge_fails`): whenever a round merges a block into another, they execute the same opcodes with
the same immediates and none of them is PC; on every stack they have the same possible effects; neither
falls through; and a jump at the end of the removed block leads to the same final block as the jump at the
end of the kept block does in the merged program. Missing: blocks whose immediates are not plain. -/
theorem C18_merge_partial {loc : AIState} {s s' : DState} {n : Nat} (h : s.once loc = some (s', n))
    (hs : Settled s) {code : Code} (hdec : Decoded code s.prog.insts) {k v : Nat}
    (hnew : s.redirects.get k = none) (hk : s'.redirects.get k = some v)
    (hplain : ∀ x ∈ s.prog.blocks, x.1 = k ∨ x.1 = v → ∀ y ∈ s.prog.blockInsts x, Plain y.2) :
    ∃ bd ∈ s.prog.blocks, ∃ bc ∈ s.prog.blocks, bd.1 = k ∧ bc.1 = v ∧
      SameCode code (s.prog.blockInsts bd) (s.prog.blockInsts bc) ∧
      (∀ y ∈ s.prog.blockInsts bd, y.2.opcode ≠ op.PC) ∧
      (∀ c c', Exec code (s.prog.blockInsts bd) c c' ↔ Exec code (s'.prog.blockInsts bc) c c') ∧
      ∃ td tc, s.prog.insts[bd.2 - 1]? = some td ∧ s'.prog.insts[bc.2 - 1]? = some tc ∧
        td.canFallThrough = false ∧ tc.canFallThrough = false ∧ tc.opcode = td.opcode ∧
        (td.isJump = true → ∀ c,
          (∀ t, s.prog.compiledNext code (bd.2 - 1) td c = some t →
            ∃ t', s'.prog.compiledNext code (bc.2 - 1) tc c = some t' ∧
              ∀ e, Ends s'.redirects.get t e ↔ Ends s'.redirects.get t' e) ∧
          (s.prog.compiledNext code (bd.2 - 1) td c = none →
            td.flags.multiJump = false ∨ code.target (c.headD 0) = none →
            s'.prog.compiledNext code (bc.2 - 1) tc c = none)) := by
  have hred := once_redirects h
  -- the redirect was added by this round
  have hmem : (k, v) ∈ roundEdges s := by
    by_cases hin : ∃ w, (k, w) ∈ roundEdges s
    · obtain ⟨w, hw⟩ := hin
      have := insertAll_get_mem _ s.redirects k w hw (fun w' hw' => roundEdges_fun hw hw')
      rw [hred, this] at hk
      cases hk; exact hw
    · rw [hred, insertAll_get_other _ _ k (fun w hw => hin ⟨w, hw⟩), hnew] at hk
      simp at hk
  have hE : ∀ e ∈ roundEdges s, s'.redirects.get e.1 = some e.2 := fun e he => by
    rw [hred]
    exact insertAll_get_mem _ _ e.1 e.2 he (fun w hw => roundEdges_fun he hw)
  -- old redirects stay
  have hold : ∀ a b, s.redirects.get a = some b → s'.redirects.get a = some b := by
    intro a b hab
    rw [hred, insertAll_get_other]
    · exact hab
    · intro w hw
      obtain ⟨_, _, _, _, x, _, _, _, hx, _, he⟩ := mem_roundEdges hw
      cases he
      exact hs.dead _ _ hab (s.prog.blocks_ok.first x (List.mem_of_getElem? hx))
  have heff : ∀ t e, Ends s'.redirects.get t e ↔ Ends s'.redirects.get (effective s.redirects t) e := by
    intro t e
    unfold effective
    cases hg : s.redirects.get t with
    | none => exact Iff.rfl
    | some w => exact ends_hop_iff (hold t w hg) e
  obtain ⟨g, hg, c, b, bd, bc, hhead, hb, hbd, hbc, hkv⟩ := mem_roundEdges hmem
  rw [Prod.mk.injEq] at hkv
  obtain ⟨rfl, rfl⟩ := hkv
  have hok := groups_ok s s.prog.blocks
  have hcg : c ∈ g.2 := List.mem_of_mem_head? hhead
  have hbg : b ∈ g.2 := List.mem_of_mem_tail hb
  obtain ⟨x, x1, hkd⟩ := hok.keys g hg b hbg
  rw [hbd] at x1; cases x1
  obtain ⟨x, x1, hkc⟩ := hok.keys g hg c hcg
  rw [hbc] at x1; cases x1
  obtain ⟨td, fd, d1, d2, d3, d4, d5, d6, d7, d8, d9⟩ := key_spec hkd
  obtain ⟨tc, fc, c1, c2, c3, c4, c5, c6, c7, c8, c9⟩ := key_spec hkc
  -- what the round kept
  have hgroups : DState.mergeGroups loc s.prog.blocks (s.succs s.prog.blocks)
      ((s.groups s.prog.blocks).map (·.2)) s = some s' := by
    unfold DState.once at h
    dsimp only at h
    obtain ⟨s1, h1, h2⟩ := Option.map_eq_some_iff.1 h
    have hs1 : s1 = s' := congrArg Prod.fst h2
    rw [hs1] at h1
    exact h1
  obtain ⟨k1, _, k3⟩ := mergeGroups_keeps (p0 := s.prog) (roundEdges s) _ hgroups
    (fun g' hg' => by
      obtain ⟨g'', h1, rfl⟩ := List.mem_map.1 hg'
      exact (hok.below g'' h1).1)
    (List.pairwise_map.2 groups_disjoint) (fun e he => he)
  have hshape := fingerprint_inj _ _ (hplain bd (List.mem_of_getElem? hbd) (.inl rfl))
    (hplain bc (List.mem_of_getElem? hbc) (.inr rfl)) (d7.symm.trans c7)
  have hinD : ∀ y ∈ s.prog.blockInsts bd, s.prog.insts[y.1]? = some y.2 := fun y hy => (mem_slice hy).1
  have hinC : ∀ y ∈ s.prog.blockInsts bc, s.prog.insts[y.1]? = some y.2 := fun y hy => (mem_slice hy).1
  obtain ⟨tc', e1, e2⟩ := k1.get c1
  obtain ⟨f1, f2, f3, f4, f5, f6⟩ := e2.flag
  have hop : tc.opcode = td.opcode := by
    -- the last instructions have equal shapes
    have hlast : ∀ x ∈ s.prog.blocks, ∃ pre t, s.prog.insts[x.2 - 1]? = some t ∧
        s.prog.blockInsts x = pre ++ [(x.2 - 1, t)] := by
      intro x hx
      obtain ⟨t, ht, _⟩ := s.prog.blocks_ok.last x hx
      have hr := (s.prog.blocks_ok.range x hx).2.1
      refine ⟨s.prog.slice x.1 (x.2 - x.1 - 1), t, ht, ?_⟩
      unfold Prog.blockInsts Prog.slice
      have hsplit : x.2 - x.1 = (x.2 - x.1 - 1) + 1 := by omega
      rw [hsplit, List.range'_concat, List.filterMap_append]
      simp only [Nat.one_mul, List.filterMap_cons, List.filterMap_nil]
      have hidx : x.1 + (x.2 - x.1 - 1) = x.2 - 1 := by omega
      rw [hidx, ht]
      rfl
    obtain ⟨p1, t1, g1, g2⟩ := hlast bd (List.mem_of_getElem? hbd)
    obtain ⟨p2, t2, g3, g4⟩ := hlast bc (List.mem_of_getElem? hbc)
    rw [d1] at g1; cases g1
    rw [c1] at g3; cases g3
    rw [g2, g4, List.map_append, List.map_append] at hshape
    have := (List.append_inj' hshape rfl).2
    simp only [List.map_cons, List.map_nil, List.cons.injEq, and_true] at this
    exact (congrArg Prod.fst this).symm
  have hfall' : tc'.canFallThrough = false := by
    unfold InstData.canFallThrough InstData.isDiverging InstData.hasConstJumpiCondition at c3 ⊢
    rw [e2.op, f2, f4, f5, f6]; exact c3
  refine ⟨bd, List.mem_of_getElem? hbd, bc, List.mem_of_getElem? hbc, rfl, rfl,
    sameCode_of_shape hdec hinD hinC hshape, d5, ?_, td, tc', d1, e1, d3, hfall', e2.op.trans hop, ?_⟩
  · have hm : Matched (SameEffect code) (s.prog.blockInsts bd) (s'.prog.blockInsts bc) := by
      have hmap : (s'.prog.blockInsts bc).map (fun x => shape x.2) = (s.prog.blockInsts bd).map fun x => shape x.2 := by
        have := congrArg (List.map Prod.snd) (slice_map_shape k1 bc.1 (bc.2 - bc.1))
        rw [List.map_map, List.map_map] at this
        exact this.trans hshape.symm
      refine matched_of_map (fun x => shape x.2) _ _ hmap.symm (fun y hy z hz hyz => ?_)
      have hz' := (mem_slice hz).1
      have hzl : z.1 < s.prog.insts.length := by
        rw [← k1.len]; exact (List.getElem?_eq_some_iff.1 hz').1
      have hzk := k1.inst z.1 _ z.2 (List.getElem?_eq_getElem hzl) hz'
      have hse := sameEffect_of_shape (x := y) (y := (z.1, s.prog.insts[z.1])) hdec (hinD y hy)
        (List.getElem?_eq_getElem hzl) (hyz.trans hzk.shape) (d5 y hy)
      exact ⟨hse.1.trans hzk.op.symm, hse.2.1, hse.2.2.1, fun hc => (hse.2.2.2 hc).trans hzk.io.symm⟩
    exact fun a a' => ⟨matched_exec hm a a', matched_exec (hm.symm fun _ _ => SameEffect.symm) a a'⟩
  · intro hjump cs
    have hjc : tc.isJump = true := by rw [isJump_of_op hop]; exact hjump
    have hstd := d6 hjump
    have hstc := c6 hjc
    obtain ⟨dd1, dd2⟩ := hs.jumps _ _ d1 hjump
    obtain ⟨cc1, cc2⟩ := hs.jumps _ _ c1 hjc
    have hlived : td.flags.deadCode = false := by
      obtain ⟨t, ht, hl⟩ := s.prog.blocks_ok.last bd (List.mem_of_getElem? hbd)
      rw [d1] at ht; cases ht; exact hl
    have hlivec : tc.flags.deadCode = false := by
      obtain ⟨t, ht, hl⟩ := s.prog.blocks_ok.last bc (List.mem_of_getElem? hbc)
      rw [c1] at ht; cases ht; exact hl
    have hmulti : tc.flags.multiJump = td.flags.multiJump := c9.symm.trans d9
    rw [compiledNext_noFall d3 dd1 dd2, compiledNext_noFall hfall' (f5.trans cc1) (f6.trans cc2),
      f1, f2, f3, hstc, hstd, hmulti]
    cases hmu : td.flags.multiJump with
    | true =>
      obtain ⟨mi, ml⟩ := hs.multi _ _ d1 hlived hmu
      obtain ⟨mi', _⟩ := hs.multi _ _ c1 hlivec (hmulti.trans hmu)
      rw [mi, mi']
      simp only [Bool.false_eq_true, if_false, if_true]
      obtain ⟨ts, hts⟩ := Option.isSome_iff_exists.1 ml
      obtain ⟨ts', hts', hsub⟩ := k3 g.2 (List.mem_map.2 ⟨g, hg, rfl⟩) b hb bd bc hbd
        (by rw [hhead, Option.bind_some]; exact hbc) (by rw [d1, Option.any_some, hmu]) ts hts
      rw [hts, hts']
      simp only [Option.getD_some]
      refine ⟨fun t ht => ?_, fun _ hn => ?_⟩
      · rw [Option.filter_eq_some_iff] at ht
        refine ⟨t, ?_, fun _ => Iff.rfl⟩
        rw [Option.filter_eq_some_iff]
        exact ⟨ht.1, by simpa using hsub t (by simpa using ht.2)⟩
      · rcases hn with hn | hn
        · simp at hn
        · rw [hn]; rfl
    | false =>
      have hmc : tc.flags.multiJump = false := hmulti.trans hmu
      have hsd : td.isStaticJump = true := by unfold InstData.isStaticJump; rw [hjump, hstd]; rfl
      have hsc : tc.isStaticJump = true := by unfold InstData.isStaticJump; rw [hjc, hstc]; rfl
      have hsucc := d8.symm.trans c8
      rw [succs_single d1 d3 hmu hsd, succs_single c1 c3 hmc hsc] at hsucc
      simp only [Bool.false_eq_true, if_false, if_true]
      cases hid : td.flags.invalidJump with
      | true =>
        cases hic : tc.flags.invalidJump with
        | true =>
          simp
        | false =>
          obtain ⟨x, hx, hxe⟩ := hs.starts _ _ c1 hlivec hsc hic hmc
          obtain ⟨q, hq, _⟩ := instToBlock_start hx
          rw [hid, hic, hxe, hq] at hsucc
          simp at hsucc
      | false =>
        obtain ⟨x, hx, hxe⟩ := hs.starts _ _ d1 hlived hsd hid hmu
        obtain ⟨q, hq, hqx⟩ := instToBlock_start hx
        cases hic : tc.flags.invalidJump with
        | true =>
          rw [hid, hic, hxe, hq] at hsucc
          simp at hsucc
        | false =>
          obtain ⟨y, hy, hye⟩ := hs.starts _ _ c1 hlivec hsc hic hmc
          obtain ⟨q', hq', hqy⟩ := instToBlock_start hy
          rw [hid, hic, hxe, hye, hq, hq'] at hsucc
          simp only [Bool.false_eq_true, if_false, Option.toList_some, List.cons.injEq, and_true] at hsucc
          subst hsucc
          rw [hqx] at hqy; cases hqy
          refine ⟨fun t ht => ?_, fun hn => by simp at hn⟩
          simp only [Bool.false_eq_true, if_false, Option.some.injEq] at ht ⊢
          subst ht
          refine ⟨_, rfl, fun e => ?_⟩
          rw [heff td.staticJumpTarget, hxe, ← hye, ← heff]
          exact ends_hops hE e2.data e

/-! ## The unrestricted claim is false -/

/-- The claim for all blocks: merged blocks execute the same opcodes with the same immediates. -/
def MergedAlike : Prop :=
  ∀ (loc : AIState) (s s' : DState) (n : Nat) (code : Code) (k v : Nat) (bd bc : Nat × Nat),
    s.once loc = some (s', n) → Settled s → Decoded code s.prog.insts →
    s.redirects.get k = none → s'.redirects.get k = some v →
    bd ∈ s.prog.blocks → bc ∈ s.prog.blocks → bd.1 = k → bc.1 = v →
    SameCode code (s.prog.blockInsts bd) (s.prog.blockInsts bc)

/-- `Settled`, as a check for states without redirects. -/
def settledCheck (s : DState) : Bool :=
  s.redirects.isEmpty && (List.range s.prog.insts.length).all fun i => (s.prog.insts[i]?).all fun d =>
    (d.flags.deadCode || !d.isStaticJump || d.flags.invalidJump || d.flags.multiJump ||
      s.prog.blocks.any fun x => x.1 == d.staticJumpTarget) &&
    (d.flags.deadCode || !d.flags.multiJump || (!d.flags.invalidJump && (s.prog.multi.lookup i).isSome)) &&
    (!d.isJump || (!d.flags.disabled && !d.flags.unknown))

theorem settled_of_check {s : DState} (h : settledCheck s = true) : Settled s := by
  unfold settledCheck at h
  rw [Bool.and_eq_true] at h
  obtain ⟨h0, h⟩ := h
  have hr : s.redirects = [] := by simpa using h0
  have hg : ∀ k, s.redirects.get k = none := by intro k; rw [hr]; rfl
  have key : ∀ (i : Nat) d, s.prog.insts[i]? = some d →
      ((d.flags.deadCode || !d.isStaticJump || d.flags.invalidJump || d.flags.multiJump ||
        s.prog.blocks.any fun x => x.1 == d.staticJumpTarget) &&
      (d.flags.deadCode || !d.flags.multiJump || (!d.flags.invalidJump && (s.prog.multi.lookup i).isSome)) &&
      (!d.isJump || (!d.flags.disabled && !d.flags.unknown))) = true := by
    intro i d hd
    have hi := (List.getElem?_eq_some_iff.1 hd).1
    have := List.all_eq_true.1 h i (List.mem_range.2 hi)
    rw [hd, Option.all_some] at this
    exact this
  refine ⟨fun k v hk => ?_, fun k v hk => ?_, fun i d hd a b c e => ?_, fun i d hd a b => ?_,
    fun i d hd a => ?_⟩
  · rw [hg] at hk; simp at hk
  · rw [hg] at hk; simp at hk
  · have := key i d hd
    rw [a, b, c, e] at this
    simp only [Bool.not_true, Bool.or_false, Bool.false_or, Bool.and_eq_true] at this
    obtain ⟨x, hx, he⟩ := List.any_eq_true.1 this.1.1
    refine ⟨x, hx, ?_⟩
    unfold effective
    rw [hg]
    exact (beq_iff_eq.1 he).symm
  · have := key i d hd
    rw [a, b] at this
    simp only [Bool.not_true, Bool.false_or, Bool.and_eq_true, Bool.not_eq_true'] at this
    exact this.1.2
  · have := key i d hd
    rw [a] at this
    simp only [Bool.not_true, Bool.false_or, Bool.and_eq_true, Bool.not_eq_true'] at this
    exact this.2

/-- Two blocks returning what they push: the first pushes `0x505080`, the second pushes zero and then
discards two words and duplicates the one below. Zero is printed as the byte `0x80`, and `0x505080`
as `0x80 0x50 0x50 0x80`, so both blocks print as `5b 62 80 50 50 80 5f 52 60 20 00 00 80 5f f3`. -/
def clashBytes : List UInt8 :=
  [0x60, 1, 0x60, 2, 0x36, 0x60, 0x16, 0x57, 0x60, 0x0b, 0x56,
   0x5b, 0x62, 0x50, 0x50, 0x80, 0x5f, 0x52, 0x60, 0x20, 0x5f, 0xf3,
   0x5b, 0x62, 0, 0, 0, 0x50, 0x50, 0x80, 0x5f, 0x52, 0x60, 0x20, 0x5f, 0xf3]

/-- The state before deduplication. -/
def clashState : DState :=
  let r := analyzeBytes (fun _ => 1) SpecId.CANCUN 1000 clashBytes
  { prog := r.1, ai := r.2 }

/-- C18 fails: `clashState` comes out of the analysis, and its two different blocks are merged. -/
theorem C18_merge_fails : ¬ MergedAlike := by
  intro h
  have hc := decoded_analyze (fun _ => 1) SpecId.CANCUN 1000 clashBytes (by decide)
  have hs : Settled clashState := settled_of_check (by decide +kernel)
  have ho : ((clashState.once clashState.ai).map fun r => r.1.redirects.get 14) = some (some 7) := by
    decide +kernel
  obtain ⟨⟨s', n⟩, h1, h2⟩ := Option.map_eq_some_iff.1 ho
  have hb : (14, 24) ∈ clashState.prog.blocks ∧ (7, 14) ∈ clashState.prog.blocks := by decide +kernel
  have := h _ _ s' n _ 14 7 (14, 24) (7, 14) h1 hs hc rfl h2 hb.1 hb.2 rfl rfl
  unfold SameCode at this
  have hlen := congrArg List.length this
  rw [List.length_map, List.length_map] at hlen
  have hl : (clashState.prog.blockInsts (14, 24)).length ≠ (clashState.prog.blockInsts (7, 14)).length := by
    decide +kernel
  exact hl hlen

/-! ## Constants in the kept block -/

theorem mergeAll_ai {bs : List (Nat × Nat)} {succ : Nat × Nat → List Nat} {canon : Nat × Nat} (l : List Nat) :
    ∀ {s s' : DState}, DState.mergeAll bs succ canon l s = some s' → s'.ai = s.ai := by
  induction l with
  | nil => intro s s' h; rw [DState.mergeAll] at h; cases h; rfl
  | cons b l ih =>
    intro s s' h
    rw [DState.mergeAll] at h
    cases hb : bs[b]? with
    | none => rw [hb] at h; simp at h
    | some dup =>
      rw [hb] at h
      dsimp only at h
      obtain ⟨s1, h1, h2⟩ := Option.bind_eq_some_iff.1 h
      rw [ih h2]
      unfold DState.merge at h1
      dsimp only at h1
      obtain ⟨p, _, rfl⟩ := Option.map_eq_some_iff.1 h1
      rfl

/-- What is recorded at an instruction agrees with `loc`. -/
def AgreesAt (loc a : AIState) (i : Nat) : Prop := a.inputs i = loc.inputs i ∧ a.outputs i = loc.outputs i

theorem restore_agrees {st loc : AIState} {q : Nat → Bool} {i : Nat} (h : q i = true ∨ AgreesAt loc st i) :
    AgreesAt loc (restore st loc q) i := by
  unfold AgreesAt restore
  dsimp only
  cases hq : q i with
  | true => simp
  | false =>
    rw [hq] at h
    simpa [AgreesAt] using h

theorem mergeGroups_agrees {loc : AIState} {bs : List (Nat × Nat)} {succ : Nat × Nat → List Nat}
    (gs : List (List Nat)) : ∀ {s s' : DState}, DState.mergeGroups loc bs succ gs s = some s' →
    (∀ i, AgreesAt loc s.ai i → AgreesAt loc s'.ai i) ∧
    ∀ g ∈ gs, ∀ c x, g.head? = some c → g.tail ≠ [] → bs[c]? = some x → ∀ i, x.1 ≤ i → i < x.2 →
      AgreesAt loc s'.ai i := by
  induction gs with
  | nil =>
    intro s s' h
    rw [DState.mergeGroups] at h; cases h
    exact ⟨fun _ h => h, fun g hg => by simp at hg⟩
  | cons g gs ih =>
    intro s s' h
    rw [DState.mergeGroups] at h
    obtain ⟨s1, h1, h2⟩ := Option.bind_eq_some_iff.1 h
    obtain ⟨i1, i2⟩ := ih h2
    have hg : (∀ i, AgreesAt loc s.ai i → AgreesAt loc s1.ai i) ∧
        ∀ c x, g.head? = some c → g.tail ≠ [] → bs[c]? = some x → ∀ i, x.1 ≤ i → i < x.2 →
          AgreesAt loc s1.ai i := by
      match g, h1 with
      | [], h1 => rw [DState.mergeGroup] at h1; cases h1; exact ⟨fun _ h => h, fun c x hc => by simp at hc⟩; nofun
      | [_], h1 =>
        rw [DState.mergeGroup] at h1
        · cases h1; exact ⟨fun _ h => h, fun c x _ ht => absurd rfl ht⟩
        · nofun
      | c :: d :: rest, h1 =>
        rw [DState.mergeGroup] at h1
        cases hc : bs[c]? with
        | none => rw [hc] at h1; simp at h1
        | some canon =>
          rw [hc] at h1
          dsimp only at h1
          have hai := mergeAll_ai _ h1
          refine ⟨fun i hi => ?_, fun c' x hc' _ hx i hlo hhi => ?_⟩
          · rw [hai]; exact restore_agrees (.inr hi)
          · rw [List.head?_cons] at hc'
            cases hc'
            rw [hc] at hx; cases hx
            rw [hai]
            exact restore_agrees (.inl (by simp [hlo, hhi]))
    refine ⟨fun i hi => i1 i (hg.1 i hi), fun g' hg' c x hc ht hx i hlo hhi => ?_⟩
    rcases List.mem_cons.1 hg' with rfl | hg'
    · exact i1 i (hg.2 c x hc ht hx i hlo hhi)
    · exact i2 g' hg' c x hc ht hx i hlo hhi

/-- C18, constants: in a block that others were merged into, every recorded operand and result is the one
of the block-local pass `loc`, which assumes nothing about the block's entry stack (`C14_unknown_entry`),
so it also holds on the paths that used to enter the merged blocks. -/
theorem C18_constants {loc : AIState} {s s' : DState} {n : Nat} (h : s.once loc = some (s', n)) {k v : Nat}
    (hnew : s.redirects.get k = none) (hk : s'.redirects.get k = some v) :
    ∃ bc ∈ s.prog.blocks, bc.1 = v ∧
      ∀ i, bc.1 ≤ i → i < bc.2 → s'.ai.inputs i = loc.inputs i ∧ s'.ai.outputs i = loc.outputs i := by
  have hmem : (k, v) ∈ roundEdges s := by
    have hred := once_redirects h
    by_cases hin : ∃ w, (k, w) ∈ roundEdges s
    · obtain ⟨w, hw⟩ := hin
      have := insertAll_get_mem _ s.redirects k w hw (fun w' hw' => roundEdges_fun hw hw')
      rw [hred, this] at hk
      cases hk; exact hw
    · rw [hred, insertAll_get_other _ _ k (fun w hw => hin ⟨w, hw⟩), hnew] at hk
      simp at hk
  obtain ⟨g, hg, c, b, bd, bc, hhead, hb, hbd, hbc, hkv⟩ := mem_roundEdges hmem
  rw [Prod.mk.injEq] at hkv
  unfold DState.once at h
  dsimp only at h
  obtain ⟨s1, h1, h2⟩ := Option.map_eq_some_iff.1 h
  have hs1 : s1 = s' := congrArg Prod.fst h2
  rw [hs1] at h1
  exact ⟨bc, List.mem_of_getElem? hbc, hkv.2.symm, fun i hlo hhi =>
    (mergeGroups_agrees _ h1).2 g.2 (List.mem_map.2 ⟨g, hg, rfl⟩) c bc hhead
      (fun he => by rw [he] at hb; simp at hb) hbc i hlo hhi⟩

/-! ## A case meeting the hypotheses -/

/-- `Plain`, as a check. -/
def plainCheck (d : InstData) : Bool :=
  minImmLen d.opcode == 0 || (decide (d.data < 2 ^ 32) &&
    (d.data == 2 ^ 31 || (d.data % 256 != 0 && d.data % 256 != 128)))

theorem plain_of_check {d : InstData} (h : plainCheck d = true) : Plain d := by
  intro hpos
  unfold plainCheck at h
  simp only [Bool.or_eq_true, beq_iff_eq, Bool.and_eq_true, decide_eq_true_eq, bne_iff_ne] at h
  rcases h with h | ⟨h1, h2 | ⟨h2, h3⟩⟩
  · omega
  · exact ⟨h1, .inl h2⟩
  · exact ⟨h1, .inr ⟨h2, h3⟩⟩

/-- The state of `redirectBytes` after analysis meets the hypotheses of `C18_merge_partial` for the
redirect from 23 to 19 that its first round adds. -/
example : ∃ s' n, redirectState.once redirectState.ai = some (s', n) ∧ Settled redirectState ∧
    Decoded (parse (fun _ => 1) SpecId.CANCUN redirectBytes).toCode redirectState.prog.insts ∧
    redirectState.redirects.get 23 = none ∧ s'.redirects.get 23 = some 19 ∧
    ∀ x ∈ redirectState.prog.blocks, ∀ y ∈ redirectState.prog.blockInsts x, Plain y.2 := by
  have ho : ((redirectState.once redirectState.ai).map fun r => r.1.redirects.get 23) = some (some 19) := by
    decide +kernel
  obtain ⟨⟨s', n⟩, h1, h2⟩ := Option.map_eq_some_iff.1 ho
  refine ⟨s', n, h1, settled_of_check (by decide +kernel),
    decoded_analyze (fun _ => 1) SpecId.CANCUN 1000 redirectBytes (by decide), rfl, h2, fun x hx y hy => ?_⟩
  have hp : (redirectState.prog.blocks.all fun x =>
      (redirectState.prog.blockInsts x).all fun y => plainCheck y.2) = true := by decide +kernel
  exact plain_of_check (List.all_eq_true.1 (List.all_eq_true.1 hp x hx) y hy)

end Verif
