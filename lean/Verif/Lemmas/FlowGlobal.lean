import Verif.Lemmas.FlowFix
import Verif.Lemmas.FlowShape
/-!
# The global pass
-/

namespace Verif
open Spec

/-! ## Edges -/

theorem mem_succs {p : Prog} {b : Nat × Nat} {d : InstData} (hd : p.insts[b.2 - 1]? = some d) {s : Nat} :
    s ∈ p.succs p.blocks b ↔ (d.canFallThrough = true ∧ instToBlock p.blocks (b.2 - 1 + 1) = some s) ∨
      ∃ t ∈ p.jumpTargets (b.2 - 1) d, instToBlock p.blocks t = some s := by
  unfold Prog.succs Prog.jumpTargets
  rw [hd]
  dsimp only
  rw [mem_addSucc_fold, List.mem_filterMap]
  constructor
  · rintro (h | h)
    · split at h
      · rename_i hc
        exact .inl ⟨hc, Option.mem_toList.1 h⟩
      · simp at h
    · exact .inr h
  · rintro (⟨h1, h2⟩ | h)
    · left
      rw [if_pos h1]
      exact Option.mem_toList.2 h2
    · exact .inr h

theorem dest_target {p : Prog} {code : Code} {i t : Nat} {d : InstData} {w : Word} (hj : d.isJump = true)
    (h : p.destOf code i d w = some t) (hm : d.flags.multiJump = true → (p.multi.lookup i).isSome = true) :
    t ∈ p.jumpTargets i d ∨ (d.flags.staticJump = false ∧ code.target w = some t) := by
  unfold Prog.destOf at h
  split at h
  · simp at h
  · rename_i hinv
    split at h
    · rename_i hmul
      left
      rw [Option.filter_eq_some_iff] at h
      unfold Prog.jumpTargets
      rw [if_pos ⟨hmul, hm hmul⟩]
      exact List.contains_iff_mem.1 h.2
    · rename_i hmul
      split at h
      · rename_i hst
        left
        cases h
        unfold Prog.jumpTargets InstData.isStaticJump
        rw [if_neg (fun x => hmul x.1), hj, hst]
        simp [hinv]
      · rename_i hst
        exact .inr ⟨by simpa using hst, h⟩

/-- A step from the last instruction of a block follows an edge of the graph or is a jump to a destination
the program does not know. -/
theorem edge_of_step {code : Code} {base : List InstData} {ok : Nat → List Word → Prop} {p : Prog}
    (h : Sound code base ok p) (hsh : JumpShape code base ok p) {i i' : Nat}
    {c c' : List Word} (hr : Reach code base ok i c) (hs : Step code base i c i' c') {d d0 : InstData}
    (hd : p.insts[i]? = some d) (hd0 : base[i]? = some d0) :
    (i' = i + 1 ∧ d.canFallThrough = true) ∨ i' ∈ p.jumpTargets i d ∨
      (d.flags.staticJump = false ∧ Jumps code base ok i c d0 ∧ code.target (c.headD 0) = some i' ∧
        (d0.opcode = op.JUMPI → c.tail.headD 0 ≠ 0)) := by
  have hm : d.flags.multiJump = true → (p.multi.lookup i).isSome = true := fun x => (hsh.multi i d hd x).2.2
  obtain ⟨d1, hd1, he⟩ := h.ev.back hd
  rw [hd0] at hd1; cases hd1
  cases hs with
  | seq hb hh h1 h2 _ =>
    rw [hd0] at hb; cases hb
    exact .inl ⟨rfl, step_not_fall (fun x => hh (he.halts.1 x)) (by rw [he.op]; exact h1) (by rw [he.op]; exact h2)⟩
  | @jump _ w r t hb hh h1 ht =>
    rw [hd0] at hb; cases hb
    have ho0 : d0.opcode = op.JUMP := toNat_eq (k := 0x56) (by omega) h1
    have ho : d.opcode = op.JUMP := by rw [he.op]; exact ho0
    have hj : d.isJump = true := by unfold InstData.isJump; rw [ho]; rfl
    have hj0 : d0.isJump = true := by unfold InstData.isJump; rw [ho0]; rfl
    have ha : HasArgs d (w :: c') := by unfold HasArgs; rw [if_pos ho]; simp
    have hn := h.next i _ d hr hd hj (fun x => hh (he.halts.1 x)) ha
    rw [compiledNext_eq, if_neg (by rw [ho]; rintro ⟨x, _⟩; exact absurd x (by decide)),
      evmNext_jump (by rw [he.op]; exact h1)] at hn
    rcases dest_target hj (hn.trans ht) hm with q | ⟨q1, q2⟩
    · exact .inr (.inl q)
    · exact .inr (.inr ⟨q1, ⟨hr, hd0, hj0, hh, he.hasArgs.1 ha⟩, ht, fun x => by rw [ho0] at x; exact absurd x (by decide)⟩)
  | @taken _ w b r t hb hh h1 hne ht =>
    rw [hd0] at hb; cases hb
    have ho0 : d0.opcode = op.JUMPI := toNat_eq (k := 0x57) (by omega) h1
    have ho : d.opcode = op.JUMPI := by rw [he.op]; exact ho0
    have hj : d.isJump = true := by unfold InstData.isJump; rw [ho]; rfl
    have hj0 : d0.isJump = true := by unfold InstData.isJump; rw [ho0]; rfl
    have ha : HasArgs d (w :: b :: c') := by unfold HasArgs; split <;> simp
    have hn := h.next i _ d hr hd hj (fun x => hh (he.halts.1 x)) ha
    rw [evmNext_taken (by rw [he.op]; exact h1) (by simpa using hne)] at hn
    have hn' : p.destOf code i d w = some i' := by
      rw [compiledNext_eq] at hn
      split at hn
      · rw [if_neg (by simpa using hne)] at hn
        exact hn.trans ht
      · exact hn.trans ht
    rcases dest_target hj hn' hm with q | ⟨q1, q2⟩
    · exact .inr (.inl q)
    · exact .inr (.inr ⟨q1, ⟨hr, hd0, hj0, hh, he.hasArgs.1 ha⟩, ht, fun _ => by simpa using hne⟩)
  | @fall _ w r hb hh h1 =>
    rw [hd0] at hb; cases hb
    have ho0 : d0.opcode = op.JUMPI := toNat_eq (k := 0x57) (by omega) h1
    have ho : d.opcode = op.JUMPI := by rw [he.op]; exact ho0
    have hj : d.isJump = true := by unfold InstData.isJump; rw [ho]; rfl
    have hj0 : d0.isJump = true := by unfold InstData.isJump; rw [ho0]; rfl
    have ha : HasArgs d (w :: 0 :: c') := by unfold HasArgs; split <;> simp
    cases hc : d.hasConstJumpiCondition with
    | false => exact .inl ⟨rfl, jumpi_falls (fun x => hh (he.halts.1 x)) (by rw [he.op]; exact h1) hc⟩
    | true =>
      have hcc : d.flags.constJumpCond = true := by
        unfold InstData.hasConstJumpiCondition at hc
        rw [Bool.and_eq_true] at hc
        exact hc.2
      have hn := h.next i _ d hr hd hj (fun x => hh (he.halts.1 x)) ha
      rw [compiledNext_eq, if_neg (by rw [hcc]; simp), evmNext_fall (by rw [he.op]; exact h1) rfl] at hn
      rcases dest_target hj hn hm with q | ⟨q1, q2⟩
      · exact .inr (.inl q)
      · exact absurd rfl (hsh.cond i _ d0 d ⟨hr, hd0, hj0, hh, he.hasArgs.1 ha⟩ hd ho hcc q1)

/-- Leaving a block starts another. -/
theorem next_start {code : Code} {base : List InstData} {ok : Nat → List Word → Prop} {p : Prog}
    (wf : FlowWf code base) (h : Sound code base ok p) (hf : Flagged p) {b i' : Nat} {blk : Nat × Nat}
    (hb : p.blocks[b]? = some blk) {i : Nat} (hi : i + 1 = blk.2) {c c' : List Word}
    (hr : Reach code base ok i c) (hs : Step code base i c i' c') (hok : ok i' c') :
    ∃ (s : Nat) (blk' : Nat × Nat), p.blocks[s]? = some blk' ∧ blk'.1 = i' := by
  obtain ⟨d, hd, hl⟩ := h.live i c hr
  have hr' : Reach code base ok i' c' := .step hr hs hok
  have start : p.isLeader i' = true → ∃ (s : Nat) (blk' : Nat × Nat), p.blocks[s]? = some blk' ∧ blk'.1 = i' := by
    intro hlead
    obtain ⟨b, hb, e⟩ := p.leader_start (h.live i' c' hr') hlead
    obtain ⟨k, hk, rfl⟩ := List.getElem_of_mem hb
    exact ⟨k, _, List.getElem?_eq_getElem hk, e⟩
  cases leaves_of_step wf h hf hr hs hd with
  | jumps dt _ h1 h2 => exact start (reachable_leader h1 h2)
  | next h1 h2 _ _ _ _ =>
    subst h1
    refine start (live_not_leader hd hl ?_)
    unfold InstData.isStaticJump at h2
    rw [Bool.and_eq_true] at h2
    exact h2.1
  | falls h1 h2 =>
    subst h1
    obtain ⟨b', hb', r1, r2⟩ := p.blocks_ok.cover (i + 1) (by omega) (h.live _ _ hr')
    obtain ⟨k, hk, rfl⟩ := List.getElem_of_mem hb'
    refine ⟨k, _, List.getElem?_eq_getElem hk, ?_⟩
    have hrange := p.blocks_ok.range blk (List.mem_of_getElem? hb)
    rcases Nat.lt_or_ge (p.blocks[k]).1 (i + 1) with hx | hx
    · exfalso
      rcases Nat.lt_trichotomy b k with h1 | h1 | h1
      · have := p.blocks_lt hb (List.getElem?_eq_getElem hk) h1; omega
      · subst h1
        rw [List.getElem?_eq_getElem hk] at hb
        cases hb; omega
      · have := p.blocks_lt (List.getElem?_eq_getElem hk) hb h1; omega
    · omega

/-! ## Classification of executed blocks -/

/-- An executed block is covered by its state, or some jump is unknown and the block is suspect or was not
reached by the fixpoint. -/
def Cls (f : FixState) (sus : List Nat) (Top : Prop) (b : Nat) (c0 : List Word) : Prop :=
  (∃ a, f.states[b]? = some (.known a) ∧ CovStack a c0) ∨ (Top ∧ (b ∈ sus ∨ f.states[b]? = some .bottom))

/-- A destination whose block the fixpoint may not have reached. -/
theorem cls_dest {code : Code} {limit : Nat} {p : Prog} {loc : AIState} {f : FixState}
    (hfix : FixInv code limit p loc [] f) {sus : List Nat} {Top : Prop}
    (hseed : ∀ (b : Nat) blk a d, f.states[b]? = some (.known a) → p.blocks[b]? = some blk →
      p.insts[blk.1]? = some d → d.isJumpdest = true → b ∈ sus)
    (ht : Top) {s : Nat} {blk : Nat × Nat} (hs : p.blocks[s]? = some blk) {dt : InstData}
    (hdt : p.insts[blk.1]? = some dt) (hj : dt.isJumpdest = true) (c : List Word) : Cls f sus Top s c := by
  right
  refine ⟨ht, ?_⟩
  have hlt : s < f.states.length := by rw [hfix.len]; exact (List.getElem?_eq_some_iff.1 hs).1
  cases hx : f.states[s]? with
  | none => rw [List.getElem?_eq_none_iff] at hx; omega
  | some x =>
    cases x with
    | bottom => exact .inr rfl
    | known a => exact .inl (hseed s blk a dt hx hs hdt hj)

theorem cov_need {code : Code} {p : Prog} {a : List AbsValue} {s : Nat} {c0 : List Word} (hc : CovStack a c0) :
    ∀ (j : Nat) (d : InstData) (cj : List Word), Along code p s c0 j cj → p.insts[j]? = some d →
      d.stackIo.1 ≤ cj.length → d.stackIo.1 + c0.length ≤ a.length + cj.length := by
  intro j d cj _ _ h
  have := hc.2
  omega

/-- The bottom blocks' snapshots are the local ones; see `pos_snap`. -/
theorem classify {code : Code} {limit : Nat} {base : List InstData} {ok : Nat → List Word → Prop} {p : Prog}
    (wf : FlowWf code base) (h : Sound code base ok p) (hf : Flagged p) (hsh : JumpShape code base ok p)
    (hok : ∀ i c, ok i c → shallow base i c) {loc : AIState} {f : FixState}
    (hfix : FixInv code limit p loc [] f) {sus : List Nat} {Top : Prop}
    (hseed : ∀ (b : Nat) blk a d, f.states[b]? = some (.known a) → p.blocks[b]? = some blk →
      p.insts[blk.1]? = some d → d.isJumpdest = true → b ∈ sus)
    (hclosed : ∀ b ∈ sus, ∀ blk, p.blocks[b]? = some blk → ∀ s ∈ p.succs p.blocks blk ++ (f.disc[b]?).getD [], s ∈ sus)
    (htop : ∀ i c d0 d, Jumps code base ok i c d0 → p.insts[i]? = some d → d.flags.staticJump = false →
      (d0.opcode = op.JUMPI → c.tail.headD 0 ≠ 0) → SnapAt f.ai i d0.stackIo.1 c →
      (f.ai.inputs i).getLast? = some .top → Top)
    {i : Nat} {c : List Word} (hr : Reach code base ok i c) :
    ∃ b blk c0, p.blocks[b]? = some blk ∧ blk.1 ≤ i ∧ i < blk.2 ∧ Reach code base ok blk.1 c0 ∧
      Along code p blk.1 c0 i c ∧ Cls f sus Top b c0 := by
  induction hr with
  | start hk =>
    have hr0 : Reach code base ok 0 [] := .start hk
    obtain ⟨blk, hb, e⟩ := p.leader_start (h.live 0 [] hr0) (by simp [Prog.isLeader])
    obtain ⟨k, hlt, rfl⟩ := List.getElem_of_mem hb
    have hrange := p.blocks_ok.range _ hb
    have hk0 : k = 0 := by
      rcases Nat.eq_zero_or_pos k with h0 | h0
      · exact h0
      · have h00 : 0 < p.blocks.length := by omega
        have := p.blocks_lt (List.getElem?_eq_getElem h00) (List.getElem?_eq_getElem hlt) h0
        have := p.blocks_ok.range _ (List.getElem_mem h00)
        omega
    obtain ⟨a, ha⟩ := hfix.zero (by intro hn; rw [hn] at hlt; simp at hlt)
    refine ⟨k, _, [], List.getElem?_eq_getElem hlt, by omega, by omega, by rw [e]; exact hr0, by rw [e]; exact .nil, .inl
      ⟨a, by rw [hk0]; exact ha, fun i v w hv hw => by simp at hw, by simp⟩⟩
  | @step i i' c c' hr hs hk ih =>
    obtain ⟨b, blk, c0, hb, q1, q2, q3, q4, hcls⟩ := ih
    obtain ⟨d, hd, hl⟩ := h.live i c hr
    have hr' : Reach code base ok i' c' := .step hr hs hk
    obtain ⟨_, hio, heff⟩ := step_effect wf h.ev hs hd
    have hal : Along code p blk.1 c0 (i + 1) c' := .snoc q4 hd hl hio heff
    obtain ⟨d0, hd0, he⟩ := h.ev.back hd
    rcases Nat.lt_or_ge (i + 1) blk.2 with hlt | hge
    · -- inside the block
      have hnj : d.isJump ≠ true := by
        intro hj
        have h1 := live_not_leader hd hl hj
        rw [p.blocks_ok.inside blk (List.mem_of_getElem? hb) (i + 1) (by omega) hlt] at h1
        simp at h1
      have e : i' = i + 1 := by
        cases leaves_of_step wf h hf hr hs hd with
        | falls h1 _ => exact h1
        | jumps _ h1 _ _ => exact absurd h1 hnj
        | next h1 _ _ _ _ _ => exact h1
      subst e
      exact ⟨b, blk, c0, hb, by omega, hlt, q3, hal, hcls⟩
    · have hi : i + 1 = blk.2 := by omega
      have hi' : blk.2 - 1 = i := by omega
      obtain ⟨s, blk', hs', e⟩ := next_start wf h hf hb hi hr hs hk
      have hrange' := p.blocks_ok.range blk' (List.mem_of_getElem? hs')
      have hits : instToBlock p.blocks i' = some s := (instToBlock_iff p i' s).2 ⟨blk', hs', by omega, by omega⟩
      refine ⟨s, blk', c', hs', by omega, by omega, by rw [e]; exact hr', by rw [e]; exact .nil, ?_⟩
      have hlen : c'.length ≤ 64 := start_shallow wf h hf hok (List.mem_of_getElem? hs') (by rw [e]; exact hr')
      have hlts : s < f.states.length := by rw [hfix.len]; exact (List.getElem?_eq_some_iff.1 hs').1
      obtain ⟨x, hx⟩ : ∃ x, f.states[s]? = some x := ⟨_, List.getElem?_eq_getElem hlts⟩
      have hal' : Along code p blk.1 c0 blk.2 c' := hi ▸ hal
      have hedge := edge_of_step h hsh hr hs hd hd0
      have hsucc : (i' = i + 1 ∧ d.canFallThrough = true) ∨ i' ∈ p.jumpTargets i d → s ∈ p.succs p.blocks blk := by
        intro hx
        refine (mem_succs (by rw [hi']; exact hd)).2 ?_
        rcases hx with ⟨rfl, hc⟩ | hx
        · exact .inl ⟨hc, by rw [hi']; exact hits⟩
        · exact .inr ⟨i', by rw [hi']; exact hx, hits⟩
      -- jumps lead to jump destinations
      have hjd : ∀ w, code.target w = some i' → ∃ dt, p.insts[blk'.1]? = some dt ∧ dt.isJumpdest = true := by
        intro w hw
        obtain ⟨bd, h1, h2⟩ := wf.dest w i' hw
        obtain ⟨dt, h3, h4⟩ := h.ev.get h1
        exact ⟨dt, by rw [e]; exact h3, by unfold InstData.isJumpdest; rw [h4.op, h2]; rfl⟩
      rcases hcls with ⟨a, ha, hcov⟩ | ⟨ht, hsus | hbot⟩
      · -- covered
        rcases hfix.done b blk a ha hb with hw | hdone
        · simp at hw
        · have viaEdge : s ∈ p.succs p.blocks blk ++ (f.disc[b]?).getD [] → Cls f sus Top s c' := by
            intro hm
            obtain ⟨a', e', hc'⟩ := hdone.out c0 c' hcov hal' hlen s x hm hx
            exact .inl ⟨a', by rw [hx, e'], hc'⟩
          rcases hedge with hE | hE | ⟨hst, hJ, htgt, hcond⟩
          · exact viaEdge (List.mem_append_left _ (hsucc (.inl hE)))
          · exact viaEdge (List.mem_append_left _ (hsucc (.inr hE)))
          · have hio0 := wf.io i d0 hd0 (not_halts_off hJ.runs)
            have hpos : 0 < d.stackIo.1 ∧ d.stackIo.1 ≤ c.length := by
              have ha := hJ.args
              unfold HasArgs at ha
              rw [he.io]
              rcases jump_cases hJ.jump with ho | ho
              · rw [(jump_io hio0).1 ho]; rw [if_pos ho] at ha; exact ⟨by decide, ha⟩
              · rw [(jump_io hio0).2 ho]; rw [if_neg (by rw [ho]; decide)] at ha; exact ⟨by decide, ha⟩
            have hsnap : SnapAt f.ai i d0.stackIo.1 c := by
              rw [← he.io]
              exact snapOf_inputs hdone.snap (by omega) q4 q2 hcov.1 (fun j d cj _ => cov_need hcov j d cj) hd hl hpos.1
                hpos.2
            obtain ⟨v, hv, hadm⟩ : ∃ v, (f.ai.inputs i).getLast? = some v ∧ Admits v (c.headD 0) := by
              obtain ⟨j1, j2⟩ := jump_snap wf hJ hsnap
              rcases jump_cases hJ.jump with ho | ho
              · obtain ⟨v, e1, e2⟩ := j1 ho
                exact ⟨v, by rw [e1]; rfl, e2⟩
              · obtain ⟨v, u, e1, e2, _⟩ := j2 ho
                exact ⟨v, by rw [e1]; rfl, e2⟩
            cases hcl : v.constList with
            | some l =>
              refine viaEdge (List.mem_append_right _ ?_)
              refine hdone.disc ⟨c0, c', hcov, hal'⟩ d (by rw [hi']; exact hd) (by rw [he.isJump]; exact hJ.jump) hst v l
                (by rw [hi']; exact hv) hcl (c.headD 0) ((admits_constList hcl _).1 hadm) i' s htgt hits
            | none =>
              have hT : v = .top := constList_none.1 hcl
              subst hT
              obtain ⟨dt, g1, g2⟩ := hjd _ htgt
              exact cls_dest hfix hseed (htop i c d0 d hJ hd hst hcond hsnap hv) hs' g1 g2 c'
      · -- suspect
        rcases hedge with hE | hE | ⟨hst, hJ, htgt, hcond⟩
        · exact .inr ⟨ht, .inl (hclosed b hsus blk hb s (List.mem_append_left _ (hsucc (.inl hE))))⟩
        · exact .inr ⟨ht, .inl (hclosed b hsus blk hb s (List.mem_append_left _ (hsucc (.inr hE))))⟩
        · obtain ⟨dt, g1, g2⟩ := hjd _ htgt
          exact cls_dest hfix hseed ht hs' g1 g2 c'
      · -- not reached by the fixpoint
        by_cases hjh : ∃ dt, p.insts[blk'.1]? = some dt ∧ dt.isJumpdest = true
        · obtain ⟨dt, g1, g2⟩ := hjh
          exact cls_dest hfix hseed ht hs' g1 g2 c'
        · have hnext : i' = i + 1 := by
            cases leaves_of_step wf h hf hr hs hd with
            | falls h1 _ => exact h1
            | jumps dt _ h1 h2 =>
              exfalso
              refine hjh ⟨dt, by rw [e]; exact h1, ?_⟩
              unfold InstData.isReachableJumpdest at h2
              rw [Bool.and_eq_true] at h2
              exact h2.1
            | next h1 _ _ _ _ _ => exact h1
          right
          refine ⟨ht, .inr ?_⟩
          cases x with
          | bottom => exact hx
          | known a' =>
            exfalso
            have hs0 : s ≠ 0 := by
              rintro rfl
              rcases Nat.eq_zero_or_pos b with h0 | h0
              · subst h0
                rw [hb] at hs'; cases hs'
                omega
              · have := p.blocks_lt hs' hb h0
                omega
            obtain ⟨q, a1, blkq, w1, w2, w3⟩ := hfix.pred s a' hs0 hx
            have hrq := p.blocks_ok.range blkq (List.mem_of_getElem? w2)
            have adj : instToBlock p.blocks blkq.2 = some s → False := by
              intro hq
              obtain ⟨y, hy, y1, y2⟩ := (instToBlock_iff p _ _).1 hq
              rw [hs'] at hy; cases hy
              have hrb := p.blocks_ok.range blk (List.mem_of_getElem? hb)
              have hqb : q = b := by
                rcases Nat.lt_trichotomy q b with h1 | h1 | h1
                · have := p.blocks_lt w2 hb h1; omega
                · exact h1
                · have h2 := p.blocks_lt hb w2 h1
                  rcases Nat.lt_trichotomy q s with h3 | h3 | h3
                  · have := p.blocks_lt w2 hs' h3; omega
                  · subst h3; rw [w2] at hs'; cases hs'; omega
                  · have := p.blocks_lt hs' w2 h3; omega
              subst hqb
              rw [hbot] at w1; simp at w1
            rcases List.mem_append.1 w3 with w3 | w3
            · obtain ⟨dq, hdq, hlq⟩ := p.blocks_ok.last blkq (List.mem_of_getElem? w2)
              rcases (mem_succs hdq).1 w3 with ⟨_, w4⟩ | ⟨t, w4, w5⟩
              · rw [show blkq.2 - 1 + 1 = blkq.2 by omega] at w4
                exact adj w4
              · rcases hsh.dest _ dq t hdq w4 with w6 | ⟨w, w6⟩
                · rw [w6, show blkq.2 - 1 + 1 = blkq.2 by omega] at w5
                  exact adj w5
                · -- a jump destination
                  obtain ⟨bd, h1, h2⟩ := wf.dest w t w6
                  obtain ⟨dt, h3, h4⟩ := h.ev.get h1
                  have hjt : dt.isJumpdest = true := by unfold InstData.isJumpdest; rw [h4.op, h2]; rfl
                  have hmem : t ∈ p.targetsOf (blkq.2 - 1) dq := by
                    unfold Prog.jumpTargets at w4
                    unfold Prog.targetsOf
                    split at w4
                    · rename_i hm
                      obtain ⟨g1, g2, _⟩ := hsh.multi _ dq hdq hm.1
                      rw [g1, g2, hlq, hm.1]
                      exact w4
                    · rename_i hm
                      split at w4
                      · rename_i hc
                        rw [Bool.and_eq_true, Bool.not_eq_true'] at hc
                        rw [hc.1, hc.2, hlq]
                        have hnm : dq.flags.multiJump ≠ true := fun hx => hm ⟨hx, (hsh.multi _ dq hdq hx).2.2⟩
                        simp only [Bool.not_true, Bool.or_self, Bool.false_eq_true, if_false]
                        rw [if_neg hnm]
                        exact w4
                      · simp at w4
                  have hre := hf.reach _ dq t dt hdq hmem h3 hjt
                  obtain ⟨y, hy, y1, y2⟩ := (instToBlock_iff p _ _).1 w5
                  rw [hs'] at hy; cases hy
                  rcases Nat.lt_or_ge blk'.1 t with hlt' | hge'
                  · have hlead : p.isLeader t = true := reachable_leader h3 (by
                      unfold InstData.isReachableJumpdest; rw [hjt, hre]; simp)
                    rw [p.blocks_ok.inside blk' (List.mem_of_getElem? hs') t hlt' y2] at hlead
                    simp at hlead
                  · have : t = blk'.1 := by omega
                    exact hjh ⟨dt, this ▸ h3, hjt⟩
            · obtain ⟨y, dt, y1, y2, y3⟩ := hfix.jd q s w3
              rw [hs'] at y1; cases y1
              exact hjh ⟨dt, y2, y3⟩

end Verif
