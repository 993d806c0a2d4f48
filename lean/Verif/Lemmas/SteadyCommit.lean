import Verif.Lemmas.SteadyMark
import Verif.Lemmas.FlowShape
import Verif.Lemmas.DedupTotal
/-!
# Refreshing and committing keep the program closed
-/

namespace Verif
open Spec

/-- What committing a resolution may do to the instruction `d` at `i`; `m'` are the recorded targets afterwards. -/
structure Committed (p : Prog) (m' : Option (List Nat)) (i : Nat) (d d' : InstData) : Prop where
  op : d'.opcode = d.opcode
  dis : d'.flags.disabled = d.flags.disabled
  unk : d'.flags.unknown = d.flags.unknown
  dead : d'.flags.deadCode = d.flags.deadCode
  con : d.flags.constJumpCond = true → d'.flags.constJumpCond = true
  how : (d'.flags.staticJump = d.flags.staticJump ∧ d'.flags.invalidJump = d.flags.invalidJump ∧
      d'.flags.multiJump = d.flags.multiJump ∧ d'.data = d.data ∧ m' = p.multi.lookup i) ∨
    (d.isJump = true ∧ d'.flags.staticJump = true ∧ d'.flags.invalidJump = false ∧ d'.flags.multiJump = false ∧
      (d'.data = i + 1 ∨ ∃ e, p.insts[d'.data]? = some e ∧ e.isJumpdest = true) ∧
      (d.flags.deadCode = false → LiveAt p.insts d'.data)) ∨
    (d.isJump = true ∧ d'.flags.staticJump = true ∧ d'.flags.invalidJump = false ∧ d'.flags.multiJump = true ∧
      d'.data ≤ i ∧ ∀ t ∈ m'.getD [], (∃ e, p.insts[t]? = some e ∧ e.isJumpdest = true) ∧
        (d.flags.deadCode = false → LiveAt p.insts t)) ∨
    (d.isJump = true ∧ d'.flags.staticJump = true ∧ d'.flags.invalidJump = true ∧ d'.flags.multiJump = false ∧
      d'.data ≤ i)

theorem Committed.isJump {p : Prog} {m' : Option (List Nat)} {i : Nat} {d d' : InstData} (h : Committed p m' i d d') :
    d'.isJump = d.isJump := by
  unfold InstData.isJump; rw [h.op]

theorem Committed.isJumpdest {p : Prog} {m' : Option (List Nat)} {i : Nat} {d d' : InstData}
    (h : Committed p m' i d d') : d'.isJumpdest = d.isJumpdest := by
  unfold InstData.isJumpdest; rw [h.op]

/-- A program after some commits. -/
structure Commits (p p' : Prog) : Prop where
  len : p'.insts.length = p.insts.length
  inst : ∀ (j : Nat) d, p.insts[j]? = some d → ∃ d', p'.insts[j]? = some d' ∧ Committed p (p'.multi.lookup j) j d d'

theorem Commits.back {p p' : Prog} (h : Commits p p') {j : Nat} {d' : InstData} (hd' : p'.insts[j]? = some d') :
    ∃ d, p.insts[j]? = some d ∧ Committed p (p'.multi.lookup j) j d d' := by
  have hl : j < p.insts.length := by rw [← h.len]; exact (List.getElem?_eq_some_iff.1 hd').1
  obtain ⟨d1, h1, h2⟩ := h.inst j _ (List.getElem?_eq_getElem hl)
  rw [hd'] at h1; cases h1
  exact ⟨_, List.getElem?_eq_getElem hl, h2⟩

theorem Commits.live {p p' : Prog} (h : Commits p p') {j : Nat} (hl : LiveAt p.insts j) : LiveAt p'.insts j := by
  obtain ⟨d, h1, h2⟩ := hl
  obtain ⟨d', h3, h4⟩ := h.inst j d h1
  exact ⟨d', h3, h4.dead.trans h2⟩

theorem Commits.jumpdest {p p' : Prog} (h : Commits p p') {j : Nat}
    (hl : ∃ e, p.insts[j]? = some e ∧ e.isJumpdest = true) : ∃ e, p'.insts[j]? = some e ∧ e.isJumpdest = true := by
  obtain ⟨d, h1, h2⟩ := hl
  obtain ⟨d', h3, h4⟩ := h.inst j d h1
  exact ⟨d', h3, h4.isJumpdest.trans h2⟩

/-- Committing keeps the program closed. -/
theorem Shut.commits {p p' : Prog} (S : Shut p) (h : Commits p p') : Shut p' := by
  refine ⟨h.live S.zero, fun i d' t hd' ht => ?_, fun i d' hd' hj hs hl j e' he' hjd => ?_, fun i d' e' hd' he' hl hx => ?_,
    fun i d' hd' hg => ?_, fun i d' hd' hj hg => ?_, fun i d' hd' hm t ht => ?_, fun j e' he' hj => ?_,
    fun j e' he' ho => ?_⟩
  · obtain ⟨d, hd, hc⟩ := h.back hd'
    apply h.live
    unfold Prog.targetsOf at ht
    split at ht
    · simp at ht
    rename_i h0
    simp only [Bool.or_eq_true, Bool.not_eq_true', not_or, Bool.not_eq_false, Bool.not_eq_true] at h0
    have hdl : d.flags.deadCode = false := hc.dead ▸ h0.2
    rcases hc.how with ⟨g1, g2, g3, g4, g5⟩ | ⟨_, g1, g2, g3, g4, g5⟩ | ⟨_, g1, g2, g3, g4, g5⟩ | ⟨_, g1, g2, g3, g4⟩
    · refine S.tgt i d t hd ?_
      unfold Prog.targetsOf InstData.staticJumpTarget InstData.isStaticJump
      have hst := h0.1.1
      unfold InstData.isStaticJump at hst
      rw [← hc.isJump, ← g1, ← g2, ← g3, ← g4, ← g5, ← hc.dead, hst, h0.1.2, h0.2, if_neg (by simp)]
      exact ht
    · rw [g3, if_neg (by simp), List.mem_singleton] at ht
      rw [ht]; exact g5 hdl
    · rw [g3, if_pos rfl] at ht
      exact (g5 t ht).2 hdl
    · rw [g2] at h0; simp at h0
  · obtain ⟨d, hd, hc⟩ := h.back hd'
    obtain ⟨e, he, hce⟩ := h.back he'
    rw [hce.dead]
    rcases hc.how with ⟨g1, _⟩ | ⟨_, g1, _⟩ | ⟨_, g1, _⟩ | ⟨_, g1, _⟩
    · exact S.dynl i d hd (hc.isJump ▸ hj) (g1 ▸ hs) (hc.dead ▸ hl) j e he (hce.isJumpdest ▸ hjd)
    all_goals (rw [g1] at hs; cases hs)
  · obtain ⟨d, hd, hc⟩ := h.back hd'
    obtain ⟨e, he, hce⟩ := h.back he'
    have := S.edge i d e hd he (hc.dead ▸ hl) (hce.dead ▸ hx)
    unfold InstData.canFallThrough InstData.isDiverging InstData.hasConstJumpiCondition at this ⊢
    rw [hc.op, hc.dis, hc.unk]
    have hcon := hc.con
    revert this hcon
    cases d.flags.constJumpCond <;> cases d'.flags.constJumpCond <;> cases hj : d.opcode == op.JUMP <;>
      cases d.flags.invalidJump <;> cases d'.flags.invalidJump <;> cases d.opcode == op.JUMPI <;>
      simp [hj, bne]
  · obtain ⟨d, hd, hc⟩ := h.back hd'
    unfold Single InstData.isStaticJump at hg
    simp only [Bool.and_eq_true, Bool.not_eq_true'] at hg
    rcases hc.how with ⟨g1, g2, g3, g4, g5⟩ | ⟨_, g1, g2, g3, g4, g5⟩ | ⟨_, g1, g2, g3, g4, g5⟩ | ⟨_, g1, g2, g3, g4⟩
    · have hsg : Single d = true := by
        unfold Single InstData.isStaticJump
        rw [← hc.isJump, ← g1, ← g2, ← g3, hg.1.1.1, hg.1.1.2, hg.1.2, hg.2]; rfl
      rw [g4]
      rcases S.dest i d hd hsg with h1 | h1
      · exact .inl h1
      · exact .inr (h.jumpdest h1)
    · rcases g4 with h1 | h1
      · exact .inl h1
      · exact .inr (h.jumpdest h1)
    · rw [g3] at hg; simp at hg
    · rw [g2] at hg; simp at hg
  · obtain ⟨d, hd, hc⟩ := h.back hd'
    rcases hc.how with ⟨g1, g2, g3, g4, g5⟩ | ⟨_, g1, g2, g3, g4, g5⟩ | ⟨_, g1, g2, g3, g4, g5⟩ | ⟨_, g1, g2, g3, g4⟩
    · rw [g4]
      refine S.stale i d hd (hc.isJump ▸ hj) ?_
      unfold Single InstData.isStaticJump at hg ⊢
      rw [← hc.isJump, ← g1, ← g2, ← g3]; exact hg
    · unfold Single InstData.isStaticJump at hg
      rw [g1, g2, g3, hj] at hg; cases hg
    · exact g4
    · exact g4
  · obtain ⟨d, hd, hc⟩ := h.back hd'
    apply h.jumpdest
    unfold multiAt at ht
    rcases hc.how with ⟨g1, g2, g3, g4, g5⟩ | ⟨_, g1, g2, g3, g4, g5⟩ | ⟨_, g1, g2, g3, g4, g5⟩ | ⟨_, g1, g2, g3, g4⟩
    · rw [g5] at ht
      exact S.mdest i d hd (g3 ▸ hm) t ht
    · rw [g3] at hm; cases hm
    · exact (g5 t ht).1
    · rw [g3] at hm; cases hm
  · obtain ⟨e, he, hc⟩ := h.back he'
    rw [hc.dis, hc.unk]
    refine S.on j e he ?_
    rw [hc.isJump, hc.isJumpdest] at hj
    exact hj
  · obtain ⟨e, he, hc⟩ := h.back he'
    rw [h.len]
    exact S.more j e he (hc.op ▸ ho)

/-- Changes that do not concern jumps. -/
theorem commits_of_same {p p' : Prog} (hlen : p'.insts.length = p.insts.length) (hm : p'.multi = p.multi)
    (h : ∀ (j : Nat) d, p.insts[j]? = some d → ∃ d', p'.insts[j]? = some d' ∧ SameJump d d' ∧
      d'.flags.disabled = d.flags.disabled ∧ d'.flags.unknown = d.flags.unknown ∧
      d'.flags.deadCode = d.flags.deadCode) : Commits p p' := by
  refine ⟨hlen, fun j d hd => ?_⟩
  obtain ⟨d', h1, h2, h3, h4, h5⟩ := h j d hd
  exact ⟨d', h1, ⟨h2.op, h3, h4, h5, fun x => h2.con.trans x, .inl ⟨h2.sta, h2.inv, h2.mul, h2.dat, by rw [hm]⟩⟩⟩

theorem commits_recompute (p : Prog) : Commits p p.recomputeReachable := by
  refine commits_of_same (evolves_recomputeReachable p).len rfl fun j d hd => ?_
  obtain ⟨d', hd', he⟩ := (evolves_recomputeReachable p).get hd
  refine ⟨d', hd', ?_⟩
  obtain ⟨d0, h0, rfl⟩ := recomputeReachable_get hd'
  rw [hd] at h0; cases h0
  split
  · exact ⟨⟨rfl, rfl, rfl, rfl, rfl, rfl⟩, rfl, rfl, rfl⟩
  · exact ⟨.refl _, rfl, rfl, rfl⟩

theorem Shut.hasDyn {p : Prog} (S : Shut p) : Shut p.recomputeHasDyn :=
  S.commits (commits_of_same rfl rfl fun _ d hd => ⟨d, hd, .refl _, rfl, rfl, rfl⟩)

theorem Shut.recompute {p : Prog} (S : Shut p) : Shut p.recomputeHasDyn.recomputeReachable :=
  S.hasDyn.commits (commits_recompute _)

theorem jumpsTo_recompute {p : Prog} {t : Nat} : JumpsTo p.recomputeReachable t ↔ JumpsTo p t := by
  constructor
  · rintro ⟨i, d', hd', ht⟩
    obtain ⟨d, hd, rfl⟩ := recomputeReachable_get hd'
    refine ⟨i, d, hd, ?_⟩
    split at ht
    · rwa [targetsOf_reach (p := p) (p' := p.recomputeReachable) rfl] at ht
    · exact ht
  · rintro ⟨i, d, hd, ht⟩
    obtain ⟨d', hd', _⟩ := (evolves_recomputeReachable p).get hd
    refine ⟨i, d', hd', ?_⟩
    obtain ⟨d0, h0, rfl⟩ := recomputeReachable_get hd'
    rw [hd] at h0; cases h0
    split
    · rwa [targetsOf_reach (p := p) (p' := p.recomputeReachable) rfl]
    · exact ht

/-- Recomputing the flags makes them up to date. -/
theorem fresh_recompute (p : Prog) : CfgFresh p.recomputeHasDyn.recomputeReachable := by
  refine ⟨?_, fun j d' hd' hj => ?_⟩
  · show p.recomputeHasDyn.hasDyn = _
    rw [Bool.eq_iff_iff, hasDyn_iff, hasDyn_iff]
    constructor
    · rintro ⟨i, d, hd, h1, h2, h3⟩
      obtain ⟨d', hd', hc⟩ := (commits_recompute p.recomputeHasDyn).inst i d hd
      have hr := recomputeReachable_same (p := p.recomputeHasDyn) hd hd' h1
      subst hr
      exact ⟨i, _, hd', h1, h2, h3⟩
    · rintro ⟨i, d', hd', h1, h2, h3⟩
      obtain ⟨d, hd, hc⟩ := (commits_recompute p.recomputeHasDyn).back hd'
      have hr := recomputeReachable_same (p := p.recomputeHasDyn) hd hd' (hc.isJump ▸ h1)
      subst hr
      exact ⟨i, _, hd, h1, h2, h3⟩
  · rw [jumpsTo_recompute]
    obtain ⟨d, hd, rfl⟩ := recomputeReachable_get hd'
    have hjd : d.isJumpdest = true := by
      split at hj
      · assumption
      · exact hj
    rw [if_pos hjd]
    show ((p.recomputeHasDyn.collect 0 p.recomputeHasDyn.insts).contains j = true) ↔ _
    rw [List.contains_iff_mem, mem_collect]
    unfold JumpsTo
    simp only [Nat.zero_add]

/-- Marking dead code completes: the rounds suffice, and afterwards every live instruction but the first is
entered. -/
theorem markDead_shut (fuel : Nat) : ∀ p : Prog, liveJumps p.insts < fuel → Shut p → CfgFresh p →
    Shut (markDead fuel p) ∧ CfgFresh (markDead fuel p) ∧ Anch (markDead fuel p) := by
  induction fuel with
  | zero => intro p h; omega
  | succ n ih =>
    intro p h S R
    rw [markDead]
    dsimp only
    by_cases hmark : markedJump p.insts (markLoop p.hasDyn 0 none p.insts) = true
    · rw [if_pos hmark]
      obtain ⟨mo, mj⟩ := markLoop_mono p.hasDyn p.insts 0 none
      have hlt := mo.liveJumps.2 (mj hmark)
      refine ih _ ?_ (S.mark R).recompute (fresh_recompute _)
      show liveJumps (p.mark.recomputeHasDyn.recomputeReachable).insts < n
      have e := (mapIdx_reach_mono (p.mark.recomputeHasDyn.collect 0 p.mark.recomputeHasDyn.insts)
        p.mark.recomputeHasDyn.insts).2.1
      have e' : liveJumps (p.mark.recomputeHasDyn.recomputeReachable).insts = liveJumps p.mark.insts := e
      rw [e']
      show liveJumps (markLoop p.hasDyn 0 none p.insts) < n
      omega
    · rw [if_neg hmark]
      have hno : markedJump p.insts p.mark.insts = false := Bool.not_eq_true _ ▸ hmark
      obtain ⟨h1, h2⟩ := S.mark_done R hno
      exact ⟨S.mark R, h1, h2⟩

theorem refresh_shut {p : Prog} (S : Shut p) : Shut p.refresh ∧ CfgFresh p.refresh ∧ Anch p.refresh :=
  markDead_shut _ _ (Nat.lt_succ_of_le (liveJumps_le _)) S.recompute (fresh_recompute p)

/-! ## Committing resolutions -/

/-- `Prog.commitOne` on the instruction itself. -/
def commitInst (top : Bool) (r : JumpRes) (d : InstData) (m : Option (List Nat)) : InstData × Option (List Nat) :=
  if d.flags.staticJump && r.cond == .unknown then (d, m)
  else
    let d := if r.cond != .unknown then { d with flags := { d.flags with constJumpCond := true } } else d
    match r.target with
    | .resolved ts =>
      match ts with
      | [t] => ({ d with
          flags := { d.flags with invalidJump := false, multiJump := false, staticJump := true }, data := t }, none)
      | ts => ({ d with flags := { d.flags with invalidJump := false, staticJump := true, multiJump := true } }, some ts)
    | .invalid =>
      ({ d with flags := { d.flags with staticJump := true, invalidJump := true, multiJump := false } }, none)
    | .bottom =>
      if !top then
        ({ d with flags := { d.flags with staticJump := true, invalidJump := true, multiJump := false } }, none)
      else (d, m)
    | .top => (d, m)

theorem commitOne_get {p : Prog} {top : Bool} {i : Nat} {r : JumpRes} {d : InstData} (hd : p.insts[i]? = some d) :
    (p.commitOne top i r).insts[i]? = some (commitInst top r d (p.multi.lookup i)).1 ∧
    (p.commitOne top i r).multi.lookup i = (commitInst top r d (p.multi.lookup i)).2 := by
  have hm : ∀ (q : Prog) f e, q.insts[i]? = some e → (q.modify i f).insts[i]? = some (f e) := by
    intro q f e he
    show (q.insts.modify i f)[i]? = _
    rw [List.getElem?_modify, he]
    simp
  unfold Prog.commitOne commitInst
  dsimp only
  rw [hd, Option.any_some]
  split
  · exact ⟨hd, rfl⟩
  · have hq : (if (r.cond != .unknown) = true then
        p.modify i fun d => { d with flags := { d.flags with constJumpCond := true } } else p).insts[i]? =
          some (if (r.cond != .unknown) = true then { d with flags := { d.flags with constJumpCond := true } } else d) ∧
        (if (r.cond != .unknown) = true then
        p.modify i fun d => { d with flags := { d.flags with constJumpCond := true } } else p).multi = p.multi := by
      split
      · exact ⟨hm _ _ d hd, rfl⟩
      · exact ⟨hd, rfl⟩
    revert hq
    generalize (if (r.cond != .unknown) = true then
        p.modify i fun d => { d with flags := { d.flags with constJumpCond := true } } else p) = q
    generalize (if (r.cond != .unknown) = true then { d with flags := { d.flags with constJumpCond := true } } else d) = e
    rintro ⟨he, hmul⟩
    rw [← hmul]
    have rem : (multiRemove q.multi i).lookup i = none := by rw [lookup_multiRemove, if_pos rfl]
    have ins : ∀ ts, (multiInsert q.multi i ts).lookup i = some ts := fun ts => by rw [lookup_multiInsert, if_pos rfl]
    cases r.target with
    | resolved ts =>
      dsimp only
      match ts with
      | [t] => exact ⟨hm _ _ _ he, rem⟩
      | [] => exact ⟨hm _ _ _ he, ins _⟩
      | _ :: _ :: _ => exact ⟨hm _ _ _ he, ins _⟩
    | invalid => exact ⟨hm _ _ _ he, rem⟩
    | bottom =>
      cases top with
      | true => exact ⟨he, rfl⟩
      | false => exact ⟨hm _ _ _ he, rem⟩
    | top => exact ⟨he, rfl⟩

/-- All commits, instruction by instruction. -/
theorem commitAll_get (top : Bool) (res : List (Nat × JumpRes)) : ∀ p : Prog, (res.map (·.1)).Nodup →
    (∀ x ∈ res, ∀ d, p.insts[x.1]? = some d →
      (res.foldl (fun p r => p.commitOne top r.1 r.2) p).insts[x.1]? =
          some (commitInst top x.2 d (p.multi.lookup x.1)).1 ∧
      (res.foldl (fun p r => p.commitOne top r.1 r.2) p).multi.lookup x.1 =
          (commitInst top x.2 d (p.multi.lookup x.1)).2) ∧
    (∀ j, j ∉ res.map (·.1) →
      (res.foldl (fun p r => p.commitOne top r.1 r.2) p).insts[j]? = p.insts[j]? ∧
      (res.foldl (fun p r => p.commitOne top r.1 r.2) p).multi.lookup j = p.multi.lookup j) := by
  induction res with
  | nil => intro p _; exact ⟨by simp, fun j _ => ⟨rfl, rfl⟩⟩
  | cons r res ih =>
    intro p hn
    rw [List.map_cons, List.nodup_cons] at hn
    obtain ⟨ih1, ih2⟩ := ih (p.commitOne top r.1 r.2) hn.2
    rw [List.foldl_cons]
    refine ⟨fun x hx d hd => ?_, fun j hj => ?_⟩
    · rcases List.mem_cons.1 hx with rfl | hx
      · obtain ⟨e1, e2⟩ := ih2 x.1 hn.1
        rw [e1, e2]
        exact commitOne_get hd
      · have hne : x.1 ≠ r.1 := fun h => hn.1 (h ▸ List.mem_map.2 ⟨x, hx, rfl⟩)
        obtain ⟨e1, e2⟩ := commitOne_other (p := p) (top := top) (r := r.2) hne
        have := ih1 x hx d (by rw [e1]; exact hd)
        rw [e2] at this
        exact this
    · rw [List.map_cons, List.mem_cons, not_or] at hj
      obtain ⟨e1, e2⟩ := ih2 j hj.2
      obtain ⟨e3, e4⟩ := commitOne_other (p := p) (top := top) (r := r.2) hj.1
      rw [e1, e2]
      exact ⟨e3, e4⟩

/-- A resolution that keeps the program closed. -/
structure ResFit (p : Prog) (i : Nat) (d : InstData) (r : JumpRes) : Prop where
  jump : d.isJump = true
  raw : d.flags.staticJump = false → ∀ ts, r.target = .resolved ts →
    (∀ t ∈ ts, ∃ e, p.insts[t]? = some e ∧ e.isJumpdest = true) ∨
      (ts = [i + 1] ∧ d.opcode = op.JUMPI ∧ d.flags.constJumpCond = false)
  again : d.flags.staticJump = true → r.cond ≠ .unknown → Single d = true ∧
    (r.target = .top ∨ r.target = .resolved [d.data] ∨
      (r.target = .resolved [i + 1] ∧ d.opcode = op.JUMPI ∧ d.flags.constJumpCond = false))

theorem Shut.next_live {p : Prog} (S : Shut p) {i : Nat} {d : InstData} (hd : p.insts[i]? = some d)
    (ho : d.opcode = op.JUMPI) (hc : d.flags.constJumpCond = false) (hl : d.flags.deadCode = false) :
    LiveAt p.insts (i + 1) := by
  have hlen := S.more i d hd ho
  refine ⟨_, List.getElem?_eq_getElem hlen, ?_⟩
  cases hx : (p.insts[i + 1]).flags.deadCode with
  | false => rfl
  | true =>
    have hf := S.edge i d _ hd (List.getElem?_eq_getElem hlen) hl hx
    have hj : d.isJump = true := by unfold InstData.isJump; rw [ho]; rfl
    obtain ⟨h1, h2⟩ := S.on i d hd (.inr hj)
    unfold InstData.canFallThrough InstData.isDiverging InstData.hasConstJumpiCondition at hf
    rw [ho, h1, h2, hc] at hf
    exact absurd hf (by cases d.flags.invalidJump <;> decide)

theorem Shut.fit {p : Prog} (S : Shut p) {top : Bool} {i : Nat} {d : InstData} {r : JumpRes}
    (hd : p.insts[i]? = some d) (hf : ResFit p i d r) :
    Committed p (commitInst top r d (p.multi.lookup i)).2 i d (commitInst top r d (p.multi.lookup i)).1 := by
  have hraw : d.flags.staticJump = false → d.data ≤ i := fun hs =>
    S.stale i d hd hf.jump (by unfold Single InstData.isStaticJump; rw [hs]; simp)
  have hjd : d.flags.staticJump = false → d.flags.deadCode = false → ∀ t,
      (∃ e, p.insts[t]? = some e ∧ e.isJumpdest = true) → LiveAt p.insts t := fun hs hl t ⟨e, h1, h2⟩ =>
    ⟨e, h1, S.dynl i d hd hf.jump hs hl t e h1 h2⟩
  unfold commitInst
  by_cases hk : (d.flags.staticJump && r.cond == .unknown) = true
  · rw [if_pos hk]
    exact ⟨rfl, rfl, rfl, rfl, id, .inl ⟨rfl, rfl, rfl, rfl, rfl⟩⟩
  rw [if_neg hk]
  dsimp only
  have hag : d.flags.staticJump = true → Single d = true ∧
    (r.target = .top ∨ r.target = .resolved [d.data] ∨
      (r.target = .resolved [i + 1] ∧ d.opcode = op.JUMPI ∧ d.flags.constJumpCond = false)) := fun hs =>
    hf.again hs (by rw [hs] at hk; simpa using hk)
  -- the condition only
  have he : ∃ e, (if (r.cond != .unknown) = true then { d with flags := { d.flags with constJumpCond := true } } else d) = e ∧
      SameJump d { e with flags := { e.flags with constJumpCond := d.flags.constJumpCond } } ∧
      e.flags.disabled = d.flags.disabled ∧ e.flags.unknown = d.flags.unknown ∧ e.flags.deadCode = d.flags.deadCode ∧
      (d.flags.constJumpCond = true → e.flags.constJumpCond = true) := by
    refine ⟨_, rfl, ?_⟩
    split
    · exact ⟨⟨rfl, rfl, rfl, rfl, rfl, rfl⟩, rfl, rfl, rfl, fun _ => rfl⟩
    · exact ⟨⟨rfl, rfl, rfl, rfl, rfl, rfl⟩, rfl, rfl, rfl, id⟩
  obtain ⟨e, he, hs, h1, h2, h3, h4⟩ := he
  rw [he]
  have keep : Committed p (p.multi.lookup i) i d e :=
    ⟨hs.op, h1, h2, h3, h4, .inl ⟨hs.sta, hs.inv, hs.mul, hs.dat, rfl⟩⟩
  have inval : d.flags.staticJump = false → Committed p none i d
      { e with flags := { e.flags with staticJump := true, invalidJump := true, multiJump := false } } := fun hns =>
    ⟨hs.op, h1, h2, h3, h4, .inr (.inr (.inr ⟨hf.jump, rfl, rfl, rfl, by
      show e.data ≤ i
      rw [show e.data = d.data from hs.dat]; exact hraw hns⟩))⟩
  cases hst : d.flags.staticJump with
  | true =>
    obtain ⟨g1, g2⟩ := hag hst
    rcases g2 with g2 | g2 | ⟨g2, g3, g4⟩
    · rw [g2]; exact keep
    · rw [g2]
      refine ⟨hs.op, h1, h2, h3, h4, .inr (.inl ⟨hf.jump, rfl, rfl, rfl, S.dest i d hd g1, fun hl => ?_⟩)⟩
      exact S.tgt i d _ hd (single_target g1 hl)
    · rw [g2]
      exact ⟨hs.op, h1, h2, h3, h4, .inr (.inl ⟨hf.jump, rfl, rfl, rfl, .inl rfl, fun hl => S.next_live hd g3 g4 hl⟩)⟩
  | false =>
    cases ht : r.target with
    | top => exact keep
    | bottom =>
      dsimp only
      cases top with
      | true => exact keep
      | false => exact inval hst
    | invalid => exact inval hst
    | resolved ts =>
      dsimp only
      have hts := hf.raw hst ts ht
      split
      · rename_i t
        rcases hts with hts | ⟨g2, g3, g4⟩
        · have hx := hts t (by simp)
          exact ⟨hs.op, h1, h2, h3, h4, .inr (.inl ⟨hf.jump, rfl, rfl, rfl, .inr hx, fun hl => hjd hst hl _ hx⟩)⟩
        · have g2 : t = i + 1 := by simpa using g2
          subst g2
          exact ⟨hs.op, h1, h2, h3, h4, .inr (.inl ⟨hf.jump, rfl, rfl, rfl, .inl rfl, fun hl => S.next_live hd g3 g4 hl⟩)⟩
      · rename_i hne
        rcases hts with hts | ⟨g2, _⟩
        · refine ⟨hs.op, h1, h2, h3, h4, .inr (.inr (.inl ⟨hf.jump, rfl, rfl, rfl, ?_, fun t ht => ?_⟩))⟩
          · show e.data ≤ i
            rw [show e.data = d.data from hs.dat]; exact hraw hst
          · have hx := hts t (by simpa using ht)
            exact ⟨hx, fun hl => hjd hst hl _ hx⟩
        · exact absurd g2 (hne _)

/-- Committing resolutions that fit. -/
theorem Shut.commit {p : Prog} (S : Shut p) {res : List (Nat × JumpRes)} (hn : (res.map (·.1)).Nodup)
    (hf : ∀ x ∈ res, ∀ d, p.insts[x.1]? = some d → ResFit p x.1 d x.2) : Shut (p.commit res) := by
  unfold Prog.commit
  dsimp only
  generalize (res.any fun r => r.2.target == .top) = top
  have hat : AtJumps p.insts res := fun x hx d hd => (hf x hx d hd).jump
  obtain ⟨h1, h2⟩ := commitAll_get top res p hn
  refine (S.commits ⟨(evolves_commits top res p hat).len, fun j d hd => ?_⟩).commits (commits_recompute _)
  by_cases hj : j ∈ res.map (·.1)
  · obtain ⟨x, hx, rfl⟩ := List.mem_map.1 hj
    obtain ⟨e1, e2⟩ := h1 x hx d hd
    exact ⟨_, e1, by rw [e2]; exact S.fit hd (hf x hx d hd)⟩
  · obtain ⟨e1, e2⟩ := h2 j hj
    exact ⟨d, e1.trans hd, by rw [e2]; exact ⟨rfl, rfl, rfl, rfl, id, .inl ⟨rfl, rfl, rfl, rfl, rfl⟩⟩⟩

end Verif
