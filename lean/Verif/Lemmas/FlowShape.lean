import Verif.Lemmas.FlowLocal
/-!
# Where static jumps of the analyzed program lead
-/

namespace Verif
open Spec

/-- The jump targets the control-flow graph uses. -/
def Prog.jumpTargets (p : Prog) (i : Nat) (d : InstData) : List Nat :=
  if d.flags.multiJump ∧ (p.multi.lookup i).isSome then (p.multi.lookup i).getD []
  else if d.isStaticJump && !d.flags.invalidJump then [d.staticJumpTarget] else []

/-- Jump targets are the next instruction or jump destinations; multi-jumps are well-formed; a jump whose
condition is known but whose destination is not is only executed with a true condition. -/
structure JumpShape (code : Code) (base : List InstData) (ok : Nat → List Word → Prop) (p : Prog) : Prop where
  multi : ∀ (i : Nat) d, p.insts[i]? = some d → d.flags.multiJump = true →
    d.isStaticJump = true ∧ d.flags.invalidJump = false ∧ (p.multi.lookup i).isSome = true
  dest : ∀ (i : Nat) d t, p.insts[i]? = some d → t ∈ p.jumpTargets i d → t = i + 1 ∨ ∃ w, code.target w = some t
  cond : ∀ i c d0 d, Jumps code base ok i c d0 → p.insts[i]? = some d → d.opcode = op.JUMPI →
    d.flags.constJumpCond = true → d.flags.staticJump = false → c.tail.headD 0 ≠ 0

theorem jumpTargets_congr {p p' : Prog} {i : Nat} {d d' : InstData} (h : SameJump d d')
    (hm : p'.multi.lookup i = p.multi.lookup i) : p'.jumpTargets i d' = p.jumpTargets i d := by
  unfold Prog.jumpTargets InstData.isStaticJump InstData.staticJumpTarget
  rw [hm, h.mul, h.isJump, h.sta, h.inv, h.dat]

theorem JumpShape.congr {code : Code} {base : List InstData} {ok : Nat → List Word → Prop} {p p' : Prog}
    (h : JumpShape code base ok p)
    (hsame : ∀ (i : Nat) d', p'.insts[i]? = some d' → ∃ d, p.insts[i]? = some d ∧ SameJump d d')
    (hm : ∀ i, p'.multi.lookup i = p.multi.lookup i) : JumpShape code base ok p' := by
  refine ⟨fun i d' hd' hmul => ?_, fun i d' t hd' ht => ?_, fun i c d0 d' hj hd' ho hc hs => ?_⟩
  · obtain ⟨d, hd, hs⟩ := hsame i d' hd'
    obtain ⟨h1, h2, h3⟩ := h.multi i d hd (hs.mul ▸ hmul)
    refine ⟨?_, hs.inv.trans h2, by rw [hm]; exact h3⟩
    unfold InstData.isStaticJump at h1 ⊢
    rw [hs.isJump, hs.sta]; exact h1
  · obtain ⟨d, hd, hs⟩ := hsame i d' hd'
    rw [jumpTargets_congr hs (hm i)] at ht
    exact h.dest i d t hd ht
  · obtain ⟨d, hd, hs'⟩ := hsame i d' hd'
    exact h.cond i c d0 d hj hd (hs'.op ▸ ho) (hs'.con ▸ hc) (hs'.sta ▸ hs)

theorem recompute_sameJump {p : Prog} {i : Nat} {d' : InstData} (h : p.recomputeReachable.insts[i]? = some d') :
    ∃ d, p.insts[i]? = some d ∧ SameJump d d' := by
  obtain ⟨d, h1, rfl⟩ := recomputeReachable_get h
  refine ⟨d, h1, ?_⟩
  split
  · exact ⟨rfl, rfl, rfl, rfl, rfl, rfl⟩
  · exact .refl _

theorem shape_recompute {code : Code} {base : List InstData} {ok : Nat → List Word → Prop} {p : Prog}
    (h : JumpShape code base ok p) : JumpShape code base ok p.recomputeReachable :=
  h.congr (fun _ _ => recompute_sameJump) (fun _ => rfl)

theorem shape_mark {code : Code} {base : List InstData} {ok : Nat → List Word → Prop} {p : Prog}
    (h : JumpShape code base ok p) : JumpShape code base ok { p with insts := markLoop p.hasDyn 0 none p.insts } := by
  refine h.congr (fun i d' hd' => ?_) (fun _ => rfl)
  obtain ⟨d, hd, _⟩ := (evolves_markLoop p.hasDyn p.insts 0 none).back hd'
  refine ⟨d, hd, ?_⟩
  rcases markLoop_get _ _ _ _ i d d' hd hd' with rfl | rfl
  · exact .refl _
  · exact ⟨rfl, rfl, rfl, rfl, rfl, rfl⟩

theorem shape_hasDyn {code : Code} {base : List InstData} {ok : Nat → List Word → Prop} {p : Prog}
    (h : JumpShape code base ok p) : JumpShape code base ok p.recomputeHasDyn :=
  ⟨h.multi, h.dest, h.cond⟩

theorem shape_markDead {code : Code} {base : List InstData} {ok : Nat → List Word → Prop} (fuel : Nat) :
    ∀ p : Prog, JumpShape code base ok p → JumpShape code base ok (markDead fuel p) := by
  induction fuel with
  | zero => intro p h; exact h
  | succ n ih =>
    intro p h
    rw [markDead]
    dsimp only
    split
    · exact ih _ (shape_recompute (shape_hasDyn (shape_mark h)))
    · exact shape_mark h

theorem shape_refresh {code : Code} {base : List InstData} {ok : Nat → List Word → Prop} {p : Prog}
    (h : JumpShape code base ok p) : JumpShape code base ok p.refresh :=
  shape_markDead _ _ (shape_recompute (shape_hasDyn h))

/-- The targets of a resolution. -/
def ResTargets (code : Code) (i : Nat) (r : JumpRes) : Prop :=
  ∀ ts, r.target = .resolved ts → ∀ t ∈ ts, t = i + 1 ∨ ∃ w, code.target w = some t

theorem mapM_image {f : Word → Option Nat} : ∀ {s : List Word} {ts : List Nat}, s.mapM f = some ts → ∀ {t : Nat}, t ∈ ts →
    ∃ w, f w = some t
  | [], ts, h, t, ht => by
    rw [List.mapM_nil] at h
    cases h
    simp at ht
  | x :: s, ts, h, t, ht => by
    rw [List.mapM_cons] at h
    simp only [Option.bind_eq_bind, Option.bind_eq_some_iff, Option.pure_def] at h
    obtain ⟨t', h1, ts', h2, h3⟩ := h
    cases h3
    rcases List.mem_cons.1 ht with rfl | ht
    · exact ⟨x, h1⟩
    · exact mapM_image h2 ht

theorem resolveJump_targets (code : Code) (st : AIState) (i : Nat) (d : InstData) :
    ResTargets code i (resolveJump code st i d) := by
  intro ts h t ht
  unfold resolveJump at h
  dsimp only at h
  generalize (if (d.opcode == op.JUMPI) = true then
      match (st.inputs i).head? with
      | some v => resolveCond v
      | none => .unknown
    else .unknown) = cond at h
  split at h
  · simp only [JumpTarget.resolved.injEq] at h
    subst h
    exact .inl (List.mem_singleton.1 ht)
  · split at h
    · rename_i v _
      right
      dsimp only at h
      unfold resolveOperand at h
      cases v with
      | top => simp at h
      | const w =>
        dsimp only at h
        cases hw : code.target w with
        | none => rw [hw] at h; simp at h
        | some t' =>
          rw [hw] at h
          simp only [JumpTarget.resolved.injEq] at h
          subst h
          exact ⟨w, by rw [hw, List.mem_singleton.1 ht]⟩
      | constSet s =>
        dsimp only at h
        cases hm : s.mapM code.target with
        | none => rw [hm] at h; simp at h
        | some ts' =>
          rw [hm] at h
          cases ts' with
          | nil => simp at h
          | cons a ts' =>
            simp only [JumpTarget.resolved.injEq] at h
            subst h
            exact mapM_image hm ht
    · simp at h

theorem shape_commitOne {code : Code} {base : List InstData} {ok : Nat → List Word → Prop} {p : Prog}
    (h : JumpShape code base ok p) (hev : Evolves base p.insts) {top : Bool} {i : Nat} {r : JumpRes}
    (hat : ∀ d, p.insts[i]? = some d → d.isJump = true) (ht : ResTargets code i r)
    (hr : ∀ c d, Jumps code base ok i c d → ResOk code d.opcode top i c r) :
    JumpShape code base ok (p.commitOne top i r) := by
  have hback : ∀ (j : Nat) d', (p.commitOne top i r).insts[j]? = some d' → ∃ d, p.insts[j]? = some d := fun j d' hd' => by
    obtain ⟨d, hd, _⟩ := (evolves_commitOne p top i r hat).back hd'
    exact ⟨d, hd⟩
  -- what happens at the jump itself
  have hmain : ∀ d d', p.insts[i]? = some d → (p.commitOne top i r).insts[i]? = some d' →
      (d'.flags.multiJump = true → d'.isStaticJump = true ∧ d'.flags.invalidJump = false ∧
        ((p.commitOne top i r).multi.lookup i).isSome = true) ∧
      (∀ t ∈ (p.commitOne top i r).jumpTargets i d', t = i + 1 ∨ ∃ w, code.target w = some t) ∧
      (∀ c d0, Jumps code base ok i c d0 → d'.opcode = op.JUMPI → d'.flags.constJumpCond = true →
        d'.flags.staticJump = false → c.tail.headD 0 ≠ 0) := by
    intro d d' hd
    have hjd := hat d hd
    have hm : ∀ (q : Prog) f e, q.insts[i]? = some e → (q.modify i f).insts[i]? = some (f e) := by
      intro q f e he
      show (q.insts.modify i f)[i]? = _
      rw [List.getElem?_modify, he]
      simp
    unfold Prog.commitOne
    dsimp only
    split
    · intro hd'
      rw [hd] at hd'; cases hd'
      exact ⟨h.multi i d hd, fun t ht => h.dest i d t hd ht, fun c d0 hj => h.cond i c d0 d hj hd⟩
    · have hq : ∃ e, (if (r.cond != .unknown) = true then
          p.modify i fun d => { d with flags := { d.flags with constJumpCond := true } } else p).insts[i]? = some e ∧
          (if (r.cond != .unknown) = true then
          p.modify i fun d => { d with flags := { d.flags with constJumpCond := true } } else p).multi = p.multi ∧
          e = { d with flags := { d.flags with constJumpCond := (r.cond != .unknown || d.flags.constJumpCond) } } := by
        split
        · rename_i h
          refine ⟨_, hm _ _ d hd, rfl, ?_⟩
          rw [h]; rfl
        · rename_i h
          refine ⟨d, hd, rfl, ?_⟩
          simp only [Bool.not_eq_true] at h
          rw [h]; rfl
      revert hq
      generalize (if (r.cond != .unknown) = true then
          p.modify i fun d => { d with flags := { d.flags with constJumpCond := true } } else p) = q
      rintro ⟨e, he, hmul, rfl⟩
      have keep : r.target ≠ .resolved [i + 1] → q.insts[i]? = some d' → (d'.flags.multiJump = true → d'.isStaticJump = true ∧
          d'.flags.invalidJump = false ∧ (q.multi.lookup i).isSome = true) ∧
          (∀ t ∈ q.jumpTargets i d', t = i + 1 ∨ ∃ w, code.target w = some t) ∧
          (∀ c d0, Jumps code base ok i c d0 → d'.opcode = op.JUMPI → d'.flags.constJumpCond = true →
            d'.flags.staticJump = false → c.tail.headD 0 ≠ 0) := by
        intro hnr hd'
        rw [he] at hd'; cases hd'
        rw [hmul]
        refine ⟨h.multi i d hd, fun t ht => h.dest i d t hd ?_, fun c d0 hj ho hc hs => ?_⟩
        · unfold Prog.jumpTargets at ht ⊢
          rw [hmul] at ht
          exact ht
        · dsimp only at ho hc hs
          by_cases hu : r.cond = .unknown
          · rw [hu] at hc
            exact h.cond i c d0 d hj hd ho (by simpa using hc) hs
          · have hres := hr c d0 hj
            cases hcc : r.cond with
            | unknown => exact absurd hcc hu
            | alwaysTrue => exact (hres.always hcc).2
            | alwaysFalse => exact absurd (hres.never hcc).2.2 hnr
      have invd : (q.modify i fun d => { d with
          flags := { d.flags with staticJump := true, invalidJump := true, multiJump := false } }).insts[i]? = some d' →
          (d'.flags.multiJump = true → d'.isStaticJump = true ∧
          d'.flags.invalidJump = false ∧ ((multiRemove q.multi i).lookup i).isSome = true) ∧
          (∀ t ∈ Prog.jumpTargets { (q.modify i fun d => { d with
            flags := { d.flags with staticJump := true, invalidJump := true, multiJump := false } }) with
              multi := multiRemove q.multi i } i d', t = i + 1 ∨ ∃ w, code.target w = some t) ∧
          (∀ c d0, Jumps code base ok i c d0 → d'.opcode = op.JUMPI → d'.flags.constJumpCond = true →
            d'.flags.staticJump = false → c.tail.headD 0 ≠ 0) := by
        intro hd'
        rw [hm _ _ _ he] at hd'; cases hd'
        refine ⟨by simp, fun t ht => ?_, by simp⟩
        unfold Prog.jumpTargets at ht
        simp at ht
      split
      · rename_i ts hts
        split
        · rename_i t
          intro hd'
          dsimp only at hd'
          rw [hm _ _ _ he] at hd'; cases hd'
          refine ⟨by simp, fun t' ht' => ?_, by simp⟩
          unfold Prog.jumpTargets at ht'
          dsimp only at ht'
          rw [if_neg (by simp)] at ht'
          split at ht'
          · rw [List.mem_singleton] at ht'
            subst ht'
            exact ht _ hts _ (by simp [InstData.staticJumpTarget])
          · simp at ht'
        · intro hd'
          dsimp only at hd'
          rw [hm _ _ _ he] at hd'; cases hd'
          refine ⟨fun _ => ⟨?_, rfl, ?_⟩, fun t' ht' => ?_, by simp⟩
          · show (d.isJump && true) = true
            rw [hjd]; rfl
          · dsimp only
            rw [lookup_multiInsert, if_pos rfl]; rfl
          · unfold Prog.jumpTargets at ht'
            dsimp only at ht'
            rw [lookup_multiInsert, if_pos rfl, if_pos ⟨rfl, rfl⟩] at ht'
            exact ht _ hts t' ht'
      · exact invd
      · rename_i hts
        split
        · exact invd
        · exact keep (by rw [hts]; simp)
      · rename_i hts
        exact keep (by rw [hts]; simp)
  refine ⟨fun j d' hd' => ?_, fun j d' t hd' ht' => ?_, fun j c d0 d' hj hd' => ?_⟩
  all_goals
    obtain ⟨d, hd⟩ := hback j d' hd'
    by_cases e : j = i
  · subst e; exact (hmain d d' hd hd').1
  · obtain ⟨e1, e2⟩ := commitOne_other (p := p) (top := top) (r := r) e
    rw [e1] at hd'; rw [e2]
    exact h.multi j d' hd'
  · subst e; exact (hmain d d' hd hd').2.1 t ht'
  · obtain ⟨e1, e2⟩ := commitOne_other (p := p) (top := top) (r := r) e
    rw [e1] at hd'
    rw [jumpTargets_congr (.refl d') e2] at ht'
    exact h.dest j d' t hd' ht'
  · subst e; exact (hmain d d' hd hd').2.2 c d0 hj
  · obtain ⟨e1, e2⟩ := commitOne_other (p := p) (top := top) (r := r) e
    rw [e1] at hd'
    exact h.cond j c d0 d' hj hd'

theorem shape_commit {code : Code} {base : List InstData} {ok : Nat → List Word → Prop} {p : Prog}
    (h : JumpShape code base ok p) (hev : Evolves base p.insts) (res : List (Nat × JumpRes)) (hat : AtJumps p.insts res)
    (ht : ∀ x ∈ res, ResTargets code x.1 x.2)
    (hr : ∀ x ∈ res, ∀ c d, Jumps code base ok x.1 c d →
      ResOk code d.opcode (res.any fun r => r.2.target == .top) x.1 c x.2) :
    JumpShape code base ok (p.commit res) := by
  have fold : ∀ (l : List (Nat × JumpRes)) (top : Bool) (p : Prog), JumpShape code base ok p → Evolves base p.insts →
      AtJumps p.insts l → (∀ x ∈ l, ResTargets code x.1 x.2) →
      (∀ x ∈ l, ∀ c d, Jumps code base ok x.1 c d → ResOk code d.opcode top x.1 c x.2) →
      JumpShape code base ok (l.foldl (fun p r => p.commitOne top r.1 r.2) p) := by
    intro l top
    induction l with
    | nil => intro p h _ _ _ _; exact h
    | cons x l ih =>
      intro p h hev hat ht hr
      rw [List.foldl_cons]
      have hx : ∀ d, p.insts[x.1]? = some d → d.isJump = true := fun d hd => hat x (by simp) d hd
      have hev1 := evolves_commitOne p top x.1 x.2 hx
      refine ih _ (shape_commitOne h hev hx (ht x (by simp)) (hr x (by simp))) (hev.trans hev1) ?_
        (fun y hy => ht y (by simp [hy])) (fun y hy => hr y (by simp [hy]))
      intro y hy d' hd'
      obtain ⟨d, hd, he⟩ := hev1.back hd'
      rw [he.isJump]
      exact hat y (by simp [hy]) d hd
  exact shape_recompute (fold res _ p h hev hat ht hr)

/-- The local pass keeps jump targets well-formed. -/
theorem local_shape {code : Code} {limit : Nat} {base : List InstData} {ok : Nat → List Word → Prop} {p : Prog}
    (wf : FlowWf code base) (h : Sound code base ok p) (hf : Flagged p) (hsh : JumpShape code base ok p)
    (hok : ∀ i c, ok i c → shallow base i c) (st : AIState) :
    JumpShape code base ok (blockAnalysisLocal code limit p st).1 := by
  have hfold := local_fold code limit p p.blocks [] (st, []) (by simpa using p.blocks_ok.sorted)
    (fun b hb => (p.blocks_ok.range b (by simpa using hb)).2.1) (by simp) (by simp)
  rw [List.nil_append] at hfold
  have hso : SnapOk code base ok (blockAnalysisLocal code limit p st).2 ∧
      OutOk code base ok (blockAnalysisLocal code limit p st).2 := local_snapOk wf h hf hok hfold.1
  unfold blockAnalysisLocal at hso ⊢
  dsimp only at hso ⊢
  have h1 := shape_commit hsh h.ev (p.blocks.foldl (fun acc b => localBlock code limit p b acc) (st, [])).2
    (local_atJumps code limit p p.blocks (st, []) (fun r hr => by simp at hr)) (fun x hx => by
      obtain ⟨d', hd', _, e⟩ := hfold.2 x hx
      rw [e]
      exact resolveJump_targets _ _ _ _) (fun x hx c d hj => by
      obtain ⟨d', hd', _, e⟩ := hfold.2 x hx
      rw [e]
      exact (resolveJump_ok wf hj (h.ev.inst x.1 d d' hj.get hd').op (hso.1.at wf hj) _).1)
  exact ⟨h1.multi, h1.dest, h1.cond⟩

/-- A freshly parsed program. -/
theorem shape_fresh {code : Code} {ok : Nat → List Word → Prop} {p : Prog} (wf : FlowWf code p.insts) :
    JumpShape code p.insts ok p := by
  refine ⟨fun i d hd hm => ?_, fun i d t hd ht => ?_, fun i c d0 d _ hd _ hc _ => ?_⟩
  · rw [(wf.fresh i d hd).2.2.2.1] at hm; simp at hm
  · unfold Prog.jumpTargets InstData.isStaticJump at ht
    rw [(wf.fresh i d hd).2.2.2.1, (wf.fresh i d hd).2.1] at ht
    simp at ht
  · rw [(wf.fresh i d hd).2.2.2.2] at hc; simp at hc

end Verif
