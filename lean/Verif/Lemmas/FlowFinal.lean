import Verif.Lemmas.FlowGlobal
/-!
# The control-flow passes end to end
-/

namespace Verif
open Spec

/-! ## The suspect blocks -/

theorem nat_length_le {a U : List Nat} (ha : a.Nodup) (h : ∀ w ∈ a, w ∈ U) : a.length ≤ U.length := by
  induction a generalizing U with
  | nil => simp
  | cons x xs ih =>
    rw [List.nodup_cons] at ha
    have hx : x ∈ U := h x (by simp)
    have hl := List.length_erase_of_mem hx
    have := ih (U := U.erase x) ha.2 fun w hw => by
      have hwx : w ≠ x := by rintro rfl; exact ha.1 hw
      exact (List.mem_erase_of_ne hwx).2 (h w (by simp [hw]))
    have := List.length_pos_of_mem hx
    simp only [List.length_cons]; omega

theorem nat_eraseDups_nodup : ∀ (n : Nat) (l : List Nat), l.length ≤ n → l.eraseDups.Nodup := by
  intro n
  induction n with
  | zero => intro l h; cases l <;> simp at h ⊢
  | succ n ih =>
    intro l h
    cases l with
    | nil => simp
    | cons a l =>
      rw [List.eraseDups_cons, List.nodup_cons]
      refine ⟨?_, ih _ ?_⟩
      · rw [List.mem_eraseDups]; simp
      · have := List.length_filter_le (fun b => !b == a) l
        simp only [List.length_cons] at h
        omega

/-- The propagation loop reaches everything it should. -/
theorem suspectLoop_closed (succ : Nat → List Nat) (n : Nat) (hsucc : ∀ b, ∀ s ∈ succ b, s < n) :
    ∀ (fuel : Nat) (w done sus : List Nat), sus = done ++ w → sus.Nodup → (∀ b ∈ sus, b < n) →
      n ≤ fuel + done.length → (∀ b ∈ done, ∀ s ∈ succ b, s ∈ sus) →
      (∀ b ∈ sus, b ∈ suspectLoop succ fuel w sus) ∧
      (∀ b ∈ suspectLoop succ fuel w sus, ∀ s ∈ succ b, s ∈ suspectLoop succ fuel w sus) := by
  intro fuel
  induction fuel with
  | zero =>
    intro w done sus e hn hlt hf hc
    have hlen : sus.length ≤ n := by
      have := nat_length_le (U := List.range n) hn (fun b hb => List.mem_range.2 (hlt b hb))
      rw [List.length_range] at this
      exact this
    have hw : w = [] := by
      rw [e, List.length_append] at hlen
      exact List.eq_nil_of_length_eq_zero (by omega)
    rw [suspectLoop]
    refine ⟨fun b h => h, fun b hb => hc b ?_⟩
    rw [e, hw, List.append_nil] at hb
    exact hb
  | succ fuel ih =>
    intro w done sus e hn hlt hf hc
    cases w with
    | nil =>
      have e1 : suspectLoop succ (fuel + 1) [] sus = sus := by rw [suspectLoop]; simp
      rw [e1]
      refine ⟨fun b h => h, fun b hb => hc b ?_⟩
      rw [e, List.append_nil] at hb
      exact hb
    | cons b w =>
      rw [suspectLoop]
      generalize hnew : ((succ b).filter fun s => !sus.contains s).eraseDups = new
      have hmem : ∀ s, s ∈ new ↔ s ∈ succ b ∧ s ∉ sus := by
        intro s
        rw [← hnew, List.mem_eraseDups, List.mem_filter]
        simp
      have hnd : new.Nodup := by rw [← hnew]; exact nat_eraseDups_nodup _ _ (Nat.le_refl _)
      obtain ⟨h1, h2⟩ := ih (w ++ new) (done ++ [b]) (sus ++ new) (by rw [e]; simp)
        (by
          rw [List.nodup_append]
          refine ⟨hn, hnd, fun x hx y hy => ?_⟩
          rintro rfl
          exact ((hmem x).1 hy).2 hx)
        (fun x hx => by
          rcases List.mem_append.1 hx with hx | hx
          · exact hlt x hx
          · exact hsucc b x ((hmem x).1 hx).1)
        (by rw [List.length_append, List.length_singleton]; omega)
        (fun x hx s hs => by
          rcases List.mem_append.1 hx with hx | hx
          · exact List.mem_append_left _ (hc x hx s hs)
          · rw [List.mem_singleton] at hx
            subst hx
            by_cases hss : s ∈ sus
            · exact List.mem_append_left _ hss
            · exact List.mem_append_right _ ((hmem s).2 ⟨hs, hss⟩))
      exact ⟨fun x hx => h1 x (List.mem_append_left _ hx), h2⟩

theorem succs_lt {p : Prog} {b : Nat × Nat} {s : Nat} (h : s ∈ p.succs p.blocks b) : s < p.blocks.length := by
  have hin : ∀ t s, instToBlock p.blocks t = some s → s < p.blocks.length := by
    intro t s h
    obtain ⟨x, hx, _⟩ := (instToBlock_iff p t s).1 h
    exact (List.getElem?_eq_some_iff.1 hx).1
  cases hd : p.insts[b.2 - 1]? with
  | none => unfold Prog.succs at h; rw [hd] at h; simp at h
  | some d =>
    rcases (mem_succs hd).1 h with ⟨_, h⟩ | ⟨t, _, h⟩
    · exact hin _ _ h
    · exact hin _ _ h

theorem suspects_ok {code : Code} {limit : Nat} {p : Prog} {loc : AIState} {f : FixState}
    (hfix : FixInv code limit p loc [] f) :
    (∀ (b : Nat) blk a d, f.states[b]? = some (.known a) → p.blocks[b]? = some blk →
      p.insts[blk.1]? = some d → d.isJumpdest = true → b ∈ suspects p p.blocks f) ∧
    (∀ b ∈ suspects p p.blocks f, ∀ blk, p.blocks[b]? = some blk →
      ∀ s ∈ p.succs p.blocks blk ++ (f.disc[b]?).getD [], s ∈ suspects p p.blocks f) := by
  unfold suspects
  dsimp only
  generalize hseed : ((List.range p.blocks.length).filter fun b =>
    (match f.states[b]? with
      | some (.known _) => true
      | _ => false) &&
    ((p.blocks[b]?).bind fun blk => p.insts[blk.1]?).any (·.isJumpdest)) = seed
  have hsucc : ∀ b : Nat, ∀ s ∈ ((p.blocks[b]?).map (p.succs p.blocks)).getD [] ++ (f.disc[b]?).getD [],
      s < p.blocks.length := by
    intro b s hs
    rcases List.mem_append.1 hs with hs | hs
    · cases hb : p.blocks[b]? with
      | none => rw [hb] at hs; simp at hs
      | some blk => rw [hb] at hs; exact succs_lt hs
    · obtain ⟨blk, _, h1, _⟩ := hfix.jd b s hs
      exact (List.getElem?_eq_some_iff.1 h1).1
  obtain ⟨h1, h2⟩ := suspectLoop_closed (fun b => ((p.blocks[b]?).map (p.succs p.blocks)).getD [] ++ (f.disc[b]?).getD [])
    p.blocks.length hsucc p.blocks.length seed [] seed (by simp)
    (by rw [← hseed]; exact List.Nodup.filter _ List.nodup_range)
    (fun b hb => by rw [← hseed, List.mem_filter] at hb; exact List.mem_range.1 hb.1) (by simp) (by simp)
  refine ⟨fun b blk a d ha hb hd hj => h1 b ?_, fun b hb blk hblk s hs => h2 b hb s ?_⟩
  · rw [← hseed, List.mem_filter]
    refine ⟨List.mem_range.2 (List.getElem?_eq_some_iff.1 hb).1, ?_⟩
    rw [ha, hb]
    simp [hd, hj]
  · rw [hblk]
    exact hs

/-! ## What each executed instruction sees -/

/-- The snapshots of the instruction at `i` describe the execution that visits it with stack `c`. -/
structure SnapHere (code : Code) (base : List InstData) (st : AIState) (i : Nat) (c : List Word) : Prop where
  inp : ∀ d, base[i]? = some d → 0 < d.stackIo.1 → d.stackIo.1 ≤ c.length → SnapAt st i d.stackIo.1 c
  out : ∀ i' c' d v, Step code base i c i' c' → base[i]? = some d → 0 < d.stackIo.2 → isSwapLike d.opcode = false →
    st.outputs i = some v → ∃ w, c'.head? = some w ∧ Admits v w

theorem snapHere_of {code : Code} {base : List InstData} {ok : Nat → List Word → Prop} {st : AIState}
    (h1 : SnapOk code base ok st) (h2 : OutOk code base ok st) {i : Nat} {c : List Word}
    (hr : Reach code base ok i c) : SnapHere code base st i c :=
  ⟨fun d => h1 i c d hr, fun i' c' d v hs => h2 i c i' c' d v hr hs⟩

theorem snapHere_congr {code : Code} {base : List InstData} {st st' : AIState} {i : Nat} {c : List Word}
    (h : SnapHere code base st i c) (e1 : st'.inputs i = st.inputs i) (e2 : st'.outputs i = st.outputs i) :
    SnapHere code base st' i c := by
  refine ⟨fun d h1 h3 h4 => ?_, fun i' c' d v h1 h2 h3 h4 h5 => h.out i' c' d v h1 h2 h3 h4 (e2 ▸ h5)⟩
  obtain ⟨a, ha⟩ := h.inp d h1 h3 h4
  exact ⟨a, by rw [e1]; exact ha⟩

theorem snapHere_all {code : Code} {base : List InstData} {ok : Nat → List Word → Prop} {st : AIState}
    (h : ∀ i c, Reach code base ok i c → SnapHere code base st i c) : SnapOk code base ok st ∧ OutOk code base ok st :=
  ⟨fun i c d hr => (h i c hr).inp d, fun i c i' c' d v hr hs => (h i c hr).out i' c' d v hs⟩

/-- Every executed instruction is described by the fixpoint's snapshots, or it is in a suspect block. -/
theorem pos_snap {code : Code} {limit : Nat} {base : List InstData} {ok : Nat → List Word → Prop} {p : Prog}
    (wf : FlowWf code base) (h : Sound code base ok p) (hf : Flagged p) (hsh : JumpShape code base ok p)
    (hok : ∀ i c, ok i c → shallow base i c) {loc : AIState} (hl1 : SnapOk code base ok loc)
    (hl2 : OutOk code base ok loc) {f : FixState} (hfix : FixInv code limit p loc [] f) {Top : Prop}
    (htop : ∀ i c d0 d, Jumps code base ok i c d0 → p.insts[i]? = some d → d.flags.staticJump = false →
      (d0.opcode = op.JUMPI → c.tail.headD 0 ≠ 0) → SnapAt f.ai i d0.stackIo.1 c →
      (f.ai.inputs i).getLast? = some .top → Top)
    {i : Nat} {c : List Word} (hr : Reach code base ok i c) :
    ∃ b, instToBlock p.blocks i = some b ∧
      (SnapHere code base f.ai i c ∨ (Top ∧ b ∈ suspects p p.blocks f)) := by
  obtain ⟨hs1, hs2⟩ := suspects_ok hfix
  obtain ⟨b, blk, c0, hb, q1, q2, q3, q4, hcls⟩ := classify wf h hf hsh hok hfix hs1 hs2 htop hr
  refine ⟨b, (instToBlock_iff p i b).2 ⟨blk, hb, q1, q2⟩, ?_⟩
  rcases hcls with ⟨a, ha, hcov⟩ | ⟨ht, hsus | hbot⟩
  · left
    rcases hfix.done b blk a ha hb with hw | hdone
    · simp at hw
    · refine ⟨fun d0 hd0 hpos hc => ?_, fun i' c' d0 v hs hd0 hout hsw hv => ?_⟩
      · obtain ⟨d, hd, he⟩ := h.ev.get hd0
        obtain ⟨d1, hd1, hl⟩ := h.live i c hr
        rw [hd] at hd1; cases hd1
        rw [← he.io] at hpos hc ⊢
        exact snapOf_inputs hdone.snap (by omega) q4 q2 hcov.1 (fun j d cj _ => cov_need hcov j d cj) hd hl hpos hc
      · obtain ⟨d, hd, he⟩ := h.ev.get hd0
        obtain ⟨d1, hd1, hl⟩ := h.live i c hr
        rw [hd] at hd1; cases hd1
        rw [← he.io] at hout
        rw [← he.op] at hsw
        obtain ⟨_, hio, heff⟩ := step_effect wf h.ev hs hd
        exact snapOf_outputs hdone.snap (by omega) q4 q2 hcov.1 (fun j d cj _ => cov_need hcov j d cj) hd hl hio heff
          hout hsw hv
  · exact .inr ⟨ht, hsus⟩
  · left
    obtain ⟨e1, e2⟩ := hfix.bot b blk hbot hb i q1 q2
    exact snapHere_congr (snapHere_of hl1 hl2 hr) e1 e2

/-! ## The resolutions -/

theorem snapHere_jump {code : Code} {base : List InstData} {ok : Nat → List Word → Prop} (wf : FlowWf code base)
    {st : AIState} {i : Nat} {c : List Word} {d : InstData} (hj : Jumps code base ok i c d)
    (h : SnapHere code base st i c) : SnapAt st i d.stackIo.1 c := by
  have hio := wf.io i d hj.get (not_halts_off hj.runs)
  have ha := hj.args
  unfold HasArgs at ha
  rcases jump_cases hj.jump with ho | ho
  · have hio' := (jump_io hio).1 ho
    rw [if_pos ho] at ha
    exact h.inp d hj.get (by rw [hio']; decide) (by rw [hio']; exact ha)
  · have hio' := (jump_io hio).2 ho
    rw [if_neg (by rw [ho]; decide)] at ha
    exact h.inp d hj.get (by rw [hio']; decide) (by rw [hio']; exact ha)

theorem localCond_ok {code : Code} {base : List InstData} {ok : Nat → List Word → Prop} (wf : FlowWf code base)
    {loc : AIState} (hl : SnapOk code base ok loc) {i : Nat} {c : List Word} {d d' : InstData}
    (hj : Jumps code base ok i c d) (ho' : d'.opcode = d.opcode) :
    (localCond loc i d' = .alwaysFalse → d.opcode = op.JUMPI ∧ c.tail.headD 0 = 0) ∧
    (localCond loc i d' = .alwaysTrue → d.opcode = op.JUMPI ∧ c.tail.headD 0 ≠ 0) := by
  unfold localCond
  rw [ho']
  by_cases ho : d.opcode = op.JUMPI
  · obtain ⟨v, u, e, _, hu⟩ := (jump_snap wf hj (hl.at wf hj)).2 ho
    rw [ho, e]
    simp only [bne_self_eq_false, Bool.false_eq_true, if_false, List.head?_cons]
    cases u with
    | top => simp
    | constSet s => simp
    | const w =>
      have hw : c.tail.headD 0 = w := hu
      rw [hw]
      dsimp only
      split
      · rename_i h0
        exact ⟨fun _ => ⟨trivial, by simpa using h0⟩, by simp⟩
      · rename_i h0
        exact ⟨by simp, fun _ => ⟨trivial, by simpa using h0⟩⟩
  · rw [if_pos (by simpa using ho)]
    simp

/-- Rewriting a resolution of a suspect block is right whatever the resolution was. -/
theorem invalidateOne_ok {code : Code} {base : List InstData} {ok : Nat → List Word → Prop} (wf : FlowWf code base)
    {p : Prog} (hev : Evolves base p.insts) {loc : AIState} (hl : SnapOk code base ok loc) {sus : List Nat} {top : Bool}
    {x : Nat × JumpRes} {c : List Word} {d : InstData} (hj : Jumps code base ok x.1 c d) {b : Nat}
    (hb : instToBlock p.blocks x.1 = some b) (h1 : b ∉ sus → ResOk code d.opcode top x.1 c x.2)
    (h2 : x.2.target = .bottom → top = true) :
    ResOk code d.opcode top x.1 c (invalidateOne loc p p.blocks sus x).2 := by
  obtain ⟨d', hd', he⟩ := hev.get hj.get
  unfold invalidateOne
  rw [hb, hd']
  dsimp only
  obtain ⟨c1, c2⟩ := localCond_ok wf hl hj he.op
  split
  · by_cases hc : localCond loc x.1 d' = .alwaysFalse
    · rw [if_pos hc]
      exact ⟨fun _ => ⟨(c1 hc).1, (c1 hc).2, rfl⟩, fun h => by dsimp only at h; rw [hc] at h; simp at h,
        fun ts h => absurd hc h, by simp, by simp⟩
    · rw [if_neg hc]
      split
      · exact ⟨fun h => absurd h hc, c2, by simp, by simp, by simp⟩
      · rename_i hr
        refine ⟨fun h => absurd h hc, c2, fun ts _ ht => ?_, fun ht => ?_, h2⟩
        · dsimp only at ht
          simp [JumpRes.isResolved, ht] at hr
        · dsimp only at ht
          simp [JumpRes.isResolved, ht] at hr
  · rename_i hn
    exact h1 fun hm => hn (List.contains_iff_mem.2 hm)

/-- A jump whose destination is unknown to the fixpoint is reported as such. -/
theorem top_reported {code : Code} {base : List InstData} {ok : Nat → List Word → Prop} (wf : FlowWf code base)
    {p : Prog} (hev : Evolves base p.insts) {st : AIState} {i : Nat} {c : List Word} {d0 d : InstData}
    (hj : Jumps code base ok i c d0) (hd : p.insts[i]? = some d) (hst : d.flags.staticJump = false)
    (hcond : d0.opcode = op.JUMPI → c.tail.headD 0 ≠ 0) (hs : SnapAt st i d0.stackIo.1 c)
    (ht : (st.inputs i).getLast? = some .top) :
    (i, d) ∈ p.jumpInsts ∧ (resolveJump code st i d).target = .top := by
  have he := hev.inst i d0 d hj.get hd
  refine ⟨?_, ?_⟩
  · unfold Prog.jumpInsts
    rw [List.mem_filter]
    refine ⟨?_, ?_⟩
    · unfold Prog.slice
      refine List.mem_filterMap.2 ⟨i, ?_, by rw [hd]; rfl⟩
      rw [List.mem_range'_1]
      have := (List.getElem?_eq_some_iff.1 hd).1
      omega
    · dsimp only
      rw [he.isJump, hj.jump, hst]; rfl
  · have hr := (resolveJump_ok wf hj he.op hs true).1
    unfold resolveJump at hr ⊢
    dsimp only at hr ⊢
    revert hr
    generalize (if (d.opcode == op.JUMPI) = true then
      match (st.inputs i).head? with
      | some v => resolveCond v
      | none => .unknown
    else .unknown) = cond
    intro hr
    by_cases hc : cond = .alwaysFalse
    · rw [if_pos hc] at hr
      obtain ⟨q1, q2, _⟩ := hr.never rfl
      exact absurd q2 (hcond q1)
    · rw [if_neg hc, ht]
      rfl

/-- Everything the global pass concludes is right. -/
theorem runAbs_ok {code : Code} {limit : Nat} {base : List InstData} {ok : Nat → List Word → Prop} {p : Prog}
    (wf : FlowWf code base) (h : Sound code base ok p) (hf : Flagged p) (hsh : JumpShape code base ok p)
    (hok : ∀ i c, ok i c → shallow base i c) {loc : AIState} (hl1 : SnapOk code base ok loc)
    (hl2 : OutOk code base ok loc) :
    (∀ x ∈ (runAbstractInterp code limit p loc loc).1, ∀ c d, Jumps code base ok x.1 c d →
      ResOk code d.opcode ((runAbstractInterp code limit p loc loc).1.any fun r => r.2.target == .top) x.1 c x.2) ∧
    SnapOk code base ok (runAbstractInterp code limit p loc loc).2 ∧
    OutOk code base ok (runAbstractInterp code limit p loc loc).2 := by
  unfold runAbstractInterp
  dsimp only
  have hfixi := runFixpoint_inv (limit := limit) (loc := loc) wf h.ev hf
  revert hfixi
  generalize runFixpoint code limit p p.blocks loc = fr
  obtain ⟨f, conv⟩ := fr
  intro hfixi
  dsimp only at hfixi ⊢
  have opOf : ∀ {x : Nat × InstData} {c d}, x ∈ p.jumpInsts → Jumps code base ok x.1 c d → x.2.opcode = d.opcode :=
    fun hx hj => (h.ev.inst _ _ _ hj.get (mem_jumpInsts hx).1).op
  have inBlock : ∀ {i c}, Reach code base ok i c → ∃ b, instToBlock p.blocks i = some b := by
    intro i c hr
    obtain ⟨blk, hb, c0, q1, q2, _⟩ := reach_blocks wf h hf hr
    obtain ⟨k, hk, rfl⟩ := List.getElem_of_mem hb
    exact ⟨k, (instToBlock_iff p i k).2 ⟨_, List.getElem?_eq_getElem hk, q1, q2⟩⟩
  cases conv with
  | false =>
    simp only [Bool.false_eq_true, if_false, Bool.not_false, Bool.or_true, if_true]
    have hsn : ∀ i c, Reach code base ok i c → SnapHere code base (restore f.ai loc fun _ => true) i c := fun i c hr =>
      snapHere_congr (snapHere_of hl1 hl2 hr) rfl rfl
    refine ⟨fun x hx c d hj => ?_, snapHere_all fun i c hr => ?_⟩
    · obtain ⟨y, hy, rfl⟩ := List.mem_map.1 hx
      obtain ⟨z, hz, rfl⟩ := List.mem_map.1 hy
      rw [invalidateOne_fst] at hj ⊢
      dsimp only at hj ⊢
      obtain ⟨b, hb⟩ := inBlock hj.reach
      obtain ⟨r1, r2⟩ := resolveJump_ok wf hj (opOf hz hj) (snapHere_jump wf hj (hsn _ _ hj.reach))
        ((List.map (invalidateOne loc p p.blocks (suspects p p.blocks f))
          (List.map (fun x => (x.1, resolveJump code (restore f.ai loc fun _ => true) x.1 x.2)) p.jumpInsts)).any
            fun r => r.2.target == .top)
      exact invalidateOne_ok wf h.ev hl1 (x := (z.1, resolveJump code (restore f.ai loc fun _ => true) z.1 z.2)) hj hb
        (fun _ => r1) (fun hb => absurd hb r2)
    · refine snapHere_congr (snapHere_of hl1 hl2 hr) ?_ ?_
      · unfold restore; dsimp only; split <;> rfl
      · unfold restore; dsimp only; split <;> rfl
  | true =>
    have hfix := hfixi rfl
    simp only [if_true, Bool.not_true, Bool.or_false]
    split
    · -- some jump is unknown
      generalize hR : (List.map (invalidateOne loc p p.blocks (suspects p p.blocks f))
          (List.map (fun x => (x.1, resolveJump code f.ai x.1 x.2)) p.jumpInsts)) = R
      have htop : ∀ i c d0 d, Jumps code base ok i c d0 → p.insts[i]? = some d → d.flags.staticJump = false →
          (d0.opcode = op.JUMPI → c.tail.headD 0 ≠ 0) → SnapAt f.ai i d0.stackIo.1 c →
          (f.ai.inputs i).getLast? = some .top → (R.any fun r => r.2.target == .top) = true := by
        intro i c d0 d hj hd hst hcond hs ht
        obtain ⟨t1, t2⟩ := top_reported wf h.ev hj hd hst hcond hs ht
        rw [List.any_eq_true]
        refine ⟨invalidateOne loc p p.blocks (suspects p p.blocks f) (i, resolveJump code f.ai i d), ?_, ?_⟩
        · rw [← hR]
          exact List.mem_map.2 ⟨_, List.mem_map.2 ⟨_, t1, rfl⟩, rfl⟩
        · obtain ⟨b, hb⟩ := inBlock hj.reach
          unfold invalidateOne
          dsimp only
          rw [hb, hd]
          dsimp only
          have hnf : localCond loc i d ≠ .alwaysFalse := by
            intro hc
            obtain ⟨q1, q2⟩ := (localCond_ok wf hl1 hj (h.ev.inst _ _ _ hj.get hd).op).1 hc
            exact hcond q1 q2
          rw [if_neg hnf]
          split
          · split
            · rfl
            · dsimp only; rw [t2]; rfl
          · dsimp only; rw [t2]; rfl
      have hpos := fun {i c} (hr : Reach code base ok i c) => pos_snap wf h hf hsh hok hl1 hl2 hfix htop hr
      refine ⟨fun x hx c d hj => ?_, snapHere_all fun i c hr => ?_⟩
      · rw [← hR] at hx
        obtain ⟨y, hy, rfl⟩ := List.mem_map.1 hx
        obtain ⟨z, hz, rfl⟩ := List.mem_map.1 hy
        rw [invalidateOne_fst] at hj ⊢
        dsimp only at hj ⊢
        obtain ⟨b, hb, hcl⟩ := hpos hj.reach
        refine invalidateOne_ok wf h.ev hl1 (x := (z.1, resolveJump code f.ai z.1 z.2)) hj hb ?_ ?_
        · intro hns
          rcases hcl with hcl | ⟨_, hcl⟩
          · exact (resolveJump_ok wf hj (opOf hz hj) (snapHere_jump wf hj hcl) _).1
          · exact absurd hcl hns
        · intro hbot
          rcases hcl with hcl | ⟨hcl, _⟩
          · exact absurd hbot (resolveJump_ok wf hj (opOf hz hj) (snapHere_jump wf hj hcl) true).2
          · exact hcl
      · obtain ⟨b, hb, hcl⟩ := hpos hr
        by_cases hs : b ∈ suspects p p.blocks f
        · refine snapHere_congr (snapHere_of hl1 hl2 hr) ?_ ?_
          · exact if_pos (by show (instToBlock p.blocks i).any _ = true; rw [hb]; exact List.contains_iff_mem.2 hs)
          · exact if_pos (by show (instToBlock p.blocks i).any _ = true; rw [hb]; exact List.contains_iff_mem.2 hs)
        · rcases hcl with hcl | ⟨_, hcl⟩
          · have hn : ¬ ((some b).any (suspects p p.blocks f).contains = true) := fun h => hs (List.contains_iff_mem.1 h)
            refine snapHere_congr hcl ?_ ?_
            · exact if_neg (by show ¬ (instToBlock p.blocks i).any _ = true; rw [hb]; exact hn)
            · exact if_neg (by show ¬ (instToBlock p.blocks i).any _ = true; rw [hb]; exact hn)
          · exact absurd hcl hs
    · rename_i hnt
      have htop : ∀ i c d0 d, Jumps code base ok i c d0 → p.insts[i]? = some d → d.flags.staticJump = false →
          (d0.opcode = op.JUMPI → c.tail.headD 0 ≠ 0) → SnapAt f.ai i d0.stackIo.1 c →
          (f.ai.inputs i).getLast? = some .top → False := by
        intro i c d0 d hj hd hst hcond hs ht
        obtain ⟨t1, t2⟩ := top_reported wf h.ev hj hd hst hcond hs ht
        apply hnt
        rw [List.any_eq_true]
        exact ⟨_, List.mem_map.2 ⟨_, t1, rfl⟩, by dsimp only; rw [t2]; rfl⟩
      have hall : ∀ i c, Reach code base ok i c → SnapHere code base f.ai i c := by
        intro i c hr
        obtain ⟨b, _, hcl | ⟨hcl, _⟩⟩ := pos_snap wf h hf hsh hok hl1 hl2 hfix htop hr
        · exact hcl
        · exact hcl.elim
      refine ⟨fun x hx c d hj => ?_, snapHere_all hall⟩
      obtain ⟨z, hz, rfl⟩ := List.mem_map.1 hx
      exact (resolveJump_ok wf hj (opOf hz hj) (snapHere_jump wf hj (hall _ _ hj.reach)) _).1

theorem blockAnalysis_sound {code : Code} {limit : Nat} {base : List InstData} {ok : Nat → List Word → Prop} {p : Prog}
    (wf : FlowWf code base) (h : Sound code base ok p) (hf : Flagged p) (hsh : JumpShape code base ok p)
    (hok : ∀ i c, ok i c → shallow base i c) {loc : AIState} (hl1 : SnapOk code base ok loc)
    (hl2 : OutOk code base ok loc) :
    Sound code base ok (blockAnalysis code limit p loc loc).1 ∧ SnapOk code base ok (blockAnalysis code limit p loc loc).2 ∧
      OutOk code base ok (blockAnalysis code limit p loc loc).2 := by
  obtain ⟨r1, r2, r3⟩ := runAbs_ok (limit := limit) wf h hf hsh hok hl1 hl2
  have hat := runAbs_atJumps code limit p loc loc
  unfold blockAnalysis
  dsimp only
  revert r1 r2 r3 hat
  generalize runAbstractInterp code limit p loc loc = r
  intro r1 r2 r3 hat
  refine ⟨?_, r2, r3⟩
  split
  · have h4 := commit_sound h _ hat r1
    exact h4.hasDyn
  · exact h.hasDyn

theorem sound_fresh {code : Code} {ok : Nat → List Word → Prop} {p : Prog} (wf : FlowWf code p.insts) :
    Sound code p.insts ok p := by
  refine ⟨.refl _, fun i c hr => ?_, fun i c d _ hd hj _ _ => ?_, fun i c d _ hd hj _ _ => ?_⟩
  · have hlt : i < p.insts.length := by
      cases hr with
      | start _ => exact List.length_pos_iff.2 wf.ne
      | step _ hs _ => exact step_in_range wf hs
    exact ⟨_, List.getElem?_eq_getElem hlt, (wf.fresh i _ (List.getElem?_eq_getElem hlt)).1⟩
  · obtain ⟨_, g1, g2, g3, g4⟩ := wf.fresh i d hd
    have hdst : p.destOf code i d (c.headD 0) = code.target (c.headD 0) := by
      unfold Prog.destOf; rw [g1, g2, g3]; rfl
    rw [compiledNext_eq, evmNext_cases hj, hdst, g4]
    by_cases ho : d.opcode = op.JUMPI
    · by_cases hb : c.tail.headD 0 = 0#256
      · rw [if_pos ⟨ho, rfl⟩, if_pos hb, if_pos ⟨ho, hb⟩]
      · rw [if_pos ⟨ho, rfl⟩, if_neg hb, if_neg (fun x => hb x.2)]
    · rw [if_neg (fun x => ho x.1), if_neg (fun x => ho x.1)]
  · obtain ⟨_, g1, g2, g3, g4⟩ := wf.fresh i d hd
    exact ⟨fun h => (by rw [g3] at h; cases h), fun h => (by rw [g2] at h; cases h), fun h => (by rw [g1] at h; cases h)⟩

theorem analyzeFlow_snd (code : Code) (limit : Nat) (p : Prog) : (analyzeFlow code limit p).2 =
    (blockAnalysis code limit (blockAnalysisLocal code limit p.refresh {}).1.refresh
      (blockAnalysisLocal code limit p.refresh {}).2 (blockAnalysisLocal code limit p.refresh {}).2).2 := by
  unfold analyzeFlow
  dsimp only

/-- The control-flow passes end to end: nothing executed is dead, every jump goes where the EVM goes, and the
recorded operands and results hold in every execution. -/
theorem analyzeFlow_sound {code : Code} {limit : Nat} {ok : Nat → List Word → Prop} {p : Prog}
    (wf : FlowWf code p.insts) (hok : ∀ i c, ok i c → shallow p.insts i c) :
    Sound code p.insts ok (analyzeFlow code limit p).1 ∧ SnapOk code p.insts ok (analyzeFlow code limit p).2 ∧
      OutOk code p.insts ok (analyzeFlow code limit p).2 ∧ Flagged (analyzeFlow code limit p).1 := by
  obtain ⟨s1, f1⟩ := refresh_sound wf (sound_fresh (ok := ok) wf)
  have sh1 : JumpShape code p.insts ok p.refresh := shape_refresh (shape_fresh wf)
  have h2 := local_sound (limit := limit) wf s1 f1 hok {}
  have sh2 := local_shape (limit := limit) wf s1 f1 sh1 hok {}
  rw [analyzeFlow_fst, analyzeFlow_snd]
  revert h2 sh2
  generalize blockAnalysisLocal code limit p.refresh {} = q
  rintro ⟨s2, hl1, hl2⟩ sh2
  obtain ⟨s3, f3⟩ := refresh_sound wf s2
  have sh3 := shape_refresh sh2
  obtain ⟨r1, r2, r3⟩ := blockAnalysis_sound (limit := limit) wf s3 f3 sh3 hok hl1 hl2
  exact ⟨(refresh_sound wf r1).1, r2, r3, (refresh_sound wf r1).2⟩

end Verif
