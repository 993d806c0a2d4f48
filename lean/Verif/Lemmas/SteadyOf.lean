import Verif.Lemmas.SteadyGlobal
import Verif.Lemmas.WholeDedupOf
/-!
# The analysed program is in the state deduplication starts from
-/

namespace Verif
open Spec

/-! ## Jumps with several targets have them recorded -/

/-- Jumps flagged as having several targets are static, valid, and have them recorded. -/
def MultiOk (p : Prog) : Prop := ∀ (i : Nat) d, p.insts[i]? = some d → d.flags.multiJump = true →
  d.isStaticJump = true ∧ d.flags.invalidJump = false ∧ (p.multi.lookup i).isSome = true

theorem markDead_multi (fuel : Nat) : ∀ p : Prog, (markDead fuel p).multi = p.multi := by
  induction fuel with
  | zero => intro p; rfl
  | succ n ih =>
    intro p
    rw [markDead]
    dsimp only
    split
    · rw [ih]; rfl
    · rfl

theorem refresh_sameJump {p : Prog} {i : Nat} {d' : InstData} (h : p.refresh.insts[i]? = some d') :
    ∃ d, p.insts[i]? = some d ∧ SameJump d d' := by
  obtain ⟨d1, h1, s1⟩ := markDead_sameJump _ _ i d' h
  obtain ⟨d0, h0, s0⟩ := recompute_sameJump h1
  exact ⟨d0, h0, ⟨s1.op.trans s0.op, s1.inv.trans s0.inv, s1.mul.trans s0.mul, s1.sta.trans s0.sta, s1.con.trans s0.con,
    s1.dat.trans s0.dat⟩⟩

theorem MultiOk.refresh {p : Prog} (h : MultiOk p) : MultiOk p.refresh := by
  intro i d' hd' hm
  obtain ⟨d, hd, s⟩ := refresh_sameJump hd'
  obtain ⟨h1, h2, h3⟩ := h i d hd (by rw [← s.mul]; exact hm)
  refine ⟨by rw [static_congr s]; exact h1, by rw [s.inv]; exact h2, ?_⟩
  have e : p.refresh.multi = p.multi := by
    unfold Prog.refresh
    dsimp only
    rw [markDead_multi]
    rfl
  rw [e]; exact h3

theorem commitInst_multi {top : Bool} {r : JumpRes} {d : InstData} {m : Option (List Nat)} (hj : d.isJump = true)
    (h : d.flags.multiJump = true → d.isStaticJump = true ∧ d.flags.invalidJump = false ∧ m.isSome = true)
    (hm : (commitInst top r d m).1.flags.multiJump = true) :
    (commitInst top r d m).1.isStaticJump = true ∧ (commitInst top r d m).1.flags.invalidJump = false ∧
      (commitInst top r d m).2.isSome = true := by
  unfold InstData.isStaticJump InstData.isJump at *
  unfold commitInst at *
  by_cases hk : (d.flags.staticJump && r.cond == .unknown) = true
  · rw [if_pos hk] at hm ⊢
    exact h hm
  · rw [if_neg hk] at hm ⊢
    dsimp only at hm ⊢
    by_cases hc : (r.cond != .unknown) = true
    · rw [if_pos hc] at hm ⊢
      cases ht : r.target with
      | bottom =>
        rw [ht] at hm
        cases top <;> simp_all
      | invalid => rw [ht] at hm; simp_all
      | top => rw [ht] at hm; simp_all
      | resolved ts =>
        rw [ht] at hm
        match ts with
        | [] => simp_all
        | [t] => simp_all
        | t :: u :: ts => simp_all
    · rw [if_neg hc] at hm ⊢
      cases ht : r.target with
      | bottom =>
        rw [ht] at hm
        cases top <;> simp_all
      | invalid => rw [ht] at hm; simp_all
      | top => rw [ht] at hm; simp_all
      | resolved ts =>
        rw [ht] at hm
        match ts with
        | [] => simp_all
        | [t] => simp_all
        | t :: u :: ts => simp_all

theorem MultiOk.commit {p : Prog} (h : MultiOk p) {res : List (Nat × JumpRes)} (hn : (res.map (·.1)).Nodup)
    (hat : AtJumps p.insts res) : MultiOk (p.commit res) := by
  unfold Prog.commit
  dsimp only
  generalize (res.any fun r => r.2.target == .top) = top
  obtain ⟨h1, h2⟩ := commitAll_get top res p hn
  have hlen := (evolves_commits top res p hat).len
  intro i d' hd' hm
  obtain ⟨d1, hd1, s⟩ := recompute_sameJump hd'
  have hi : i < p.insts.length := by rw [← hlen]; exact (List.getElem?_eq_some_iff.1 hd1).1
  have hd := List.getElem?_eq_getElem hi
  rw [s.mul] at hm
  rw [static_congr s, s.inv]
  show _ ∧ _ ∧ ((res.foldl (fun p r => p.commitOne top r.1 r.2) p).multi.lookup i).isSome = true
  by_cases hj : i ∈ res.map (·.1)
  · obtain ⟨x, hx, rfl⟩ := List.mem_map.1 hj
    obtain ⟨e1, e2⟩ := h1 x hx _ hd
    rw [hd1] at e1
    cases e1
    rw [e2]
    exact commitInst_multi (hat x hx _ hd) (h x.1 _ hd) hm
  · obtain ⟨e1, e2⟩ := h2 i hj
    rw [e1, hd] at hd1
    cases hd1
    rw [e2]
    exact h i _ hd hm

/-! ## After the local pass -/

/-- What the jumps look like when the global pass starts. -/
structure AfterLocal (code : Code) (limit : Nat) (p q : Prog) (loc : AIState) : Prop where
  jumps : ∀ (i : Nat) d', q.insts[i]? = some d' → d'.isJump = true →
    (d'.flags.staticJump = false ∧ d'.flags.constJumpCond = false) ∨
    ∃ x b d t st0, x.1 = i ∧ LocRes code limit p loc x b d t st0 ∧ d'.opcode = d.opcode ∧ Single d' = true ∧ d'.data = t ∧
      (d'.flags.constJumpCond = false → x.2.cond = .unknown)

theorem afterLocal {code : Code} {limit : Nat} {p : Prog}
    (hraw : ∀ (i : Nat) d, p.insts[i]? = some d → d.flags.staticJump = false ∧ d.flags.constJumpCond = false) :
    AfterLocal code limit p (blockAnalysisLocal code limit p {}).1.refresh (blockAnalysisLocal code limit p {}).2 := by
  refine ⟨fun i d' hd' hj => ?_⟩
  obtain ⟨hn, hres⟩ := localRes_ok code limit p
  rw [blockAnalysisLocal_fst] at hd'
  obtain ⟨d2, hd2, s2⟩ := refresh_sameJump hd'
  have hd2 : (p.commit (localRes code limit p)).insts[i]? = some d2 := hd2
  unfold Prog.commit at hd2
  dsimp only at hd2
  revert hd2
  generalize ((localRes code limit p).any fun r => r.2.target == .top) = top
  intro hd2
  obtain ⟨d1, hd1, s1⟩ := recompute_sameJump hd2
  obtain ⟨h1, h2⟩ := commitAll_get top (localRes code limit p) p hn
  have hat : AtJumps p.insts (localRes code limit p) := fun x hx d hd => by
    obtain ⟨b, e, t, st0, r⟩ := hres x hx
    have := r.get
    rw [hd] at this; cases this
    exact r.jump
  have hi : i < p.insts.length := by
    rw [← (evolves_commits top (localRes code limit p) p hat).len]
    exact (List.getElem?_eq_some_iff.1 hd1).1
  have hd := List.getElem?_eq_getElem hi
  by_cases hm : i ∈ (localRes code limit p).map (·.1)
  · right
    obtain ⟨x, hx, rfl⟩ := List.mem_map.1 hm
    obtain ⟨b, e, t, st0, r⟩ := hres x hx
    obtain ⟨e1, _⟩ := h1 x hx _ r.get
    rw [hd1] at e1
    have e1 := Option.some.inj e1
    refine ⟨x, b, e, t, st0, rfl, r, ?_⟩
    have ho : d'.opcode = d1.opcode := s2.op.trans s1.op
    have key : d1.opcode = e.opcode ∧ Single d1 = true ∧ d1.data = t ∧
        (d1.flags.constJumpCond = false → x.2.cond = .unknown) := by
      rw [e1]
      have hj := r.jump
      unfold commitInst Single InstData.isStaticJump
      unfold InstData.isJump at hj ⊢
      rw [r.raw, r.one]
      simp only [Bool.false_and, Bool.false_eq_true, if_false]
      by_cases hc : x.2.cond = .unknown
      · rw [if_neg (by simp [hc])]
        simp [hc, hj]
      · rw [if_pos (by simp [hc])]
        simp [hj]
    refine ⟨ho.trans key.1, ?_, ?_, ?_⟩
    · rw [single_congr s2, single_congr s1]; exact key.2.1
    · rw [s2.dat, s1.dat]; exact key.2.2.1
    · rw [s2.con, s1.con]; exact key.2.2.2
  · left
    obtain ⟨e1, _⟩ := h2 i hm
    rw [e1] at hd1
    rw [s2.sta, s1.sta, s2.con, s1.con]
    exact hraw i d1 hd1

theorem dest_jumpdest {code : Code} {base : List InstData} {p : Prog} (wf : FlowWf code base)
    (hev : Evolves base p.insts) {w : Word} {t : Nat} (h : code.target w = some t) :
    ∃ e, p.insts[t]? = some e ∧ e.isJumpdest = true := by
  obtain ⟨d, h1, h2⟩ := wf.dest w t h
  obtain ⟨e, h3, h4⟩ := hev.get h1
  refine ⟨e, h3, ?_⟩
  unfold InstData.isJumpdest
  rw [h4.op, h2]; rfl

/-- The local pass keeps the program closed. -/
theorem local_shut {code : Code} {limit : Nat} {base : List InstData} {p : Prog} (wf : FlowWf code base) (S : Shut p)
    (hev : Evolves base p.insts)
    (hraw : ∀ (i : Nat) d, p.insts[i]? = some d → d.flags.staticJump = false ∧ d.flags.constJumpCond = false) :
    Shut (blockAnalysisLocal code limit p {}).1 := by
  obtain ⟨hn, hres⟩ := localRes_ok code limit p
  rw [blockAnalysisLocal_fst]
  refine (S.commit hn fun x hx d hd => ?_).hasDyn
  obtain ⟨b, e, t, st0, r⟩ := hres x hx
  have hg := r.get
  rw [hd] at hg; cases hg
  refine ⟨r.jump, fun _ ts hts => ?_, fun hs => by rw [r.raw] at hs; cases hs⟩
  rw [r.res] at hts
  rcases resolveJump_dest code _ x.1 d hts with ⟨h1, h2⟩ | h1
  · exact .inr ⟨h1, h2, (hraw _ d hd).2⟩
  · refine .inl fun t' ht' => ?_
    obtain ⟨w, hw⟩ := h1 t' ht'
    exact dest_jumpdest wf hev hw

/-- The global pass keeps the program closed. -/
theorem global_shut {code : Code} {limit : Nat} {base : List InstData} {p q : Prog} {loc : AIState}
    (wf : FlowWf code base) (S : Shut p) (R : CfgFresh p) (ha : Anch p) (hev : Evolves base p.insts)
    (S' : Shut q) (ha' : Anch q) (hev' : Evolves p.insts q.insts) (hA : AfterLocal code limit p q loc) (M : MultiOk q) :
    Shut (blockAnalysis code limit q loc loc).1 ∧ MultiOk (blockAnalysis code limit q loc loc).1 := by
  have hn : ((runAbstractInterp code limit q loc loc).1.map (·.1)).Nodup := by
    rw [runAbs_keys]; exact jumpInsts_nodup q
  have hfit : ∀ y ∈ (runAbstractInterp code limit q loc loc).1, ∀ d, q.insts[y.1]? = some d → ResFit q y.1 d y.2 := by
    intro y hy d hd
    obtain ⟨d', hm, hcase⟩ := runAbs_mem hy
    obtain ⟨g1, g2, g3⟩ := mem_jumpInsts hm
    dsimp only at g1 g2 g3
    rw [hd] at g1; cases g1
    rcases hA.jumps y.1 d hd g2 with ⟨hst, hcon⟩ | ⟨x, b, e, t, st0, hxy, r, ho, hsing, hdat, hunk⟩
    · refine ⟨g2, fun _ ts hts => ?_, fun h => by rw [hst] at h; cases h⟩
      have fromRes : (resolveJump code (fixAi code limit q loc loc) y.1 d).target = .resolved ts →
          (∀ t ∈ ts, ∃ e, q.insts[t]? = some e ∧ e.isJumpdest = true) ∨
            (ts = [y.1 + 1] ∧ d.opcode = op.JUMPI ∧ d.flags.constJumpCond = false) := fun h => by
        rcases resolveJump_dest code _ y.1 d h with ⟨h1, h2⟩ | h1
        · exact .inr ⟨h1, h2, hcon⟩
        · refine .inl fun t ht => ?_
          obtain ⟨w, hw⟩ := h1 t ht
          exact dest_jumpdest wf (hev.trans hev') hw
      rcases hcase with e | ⟨e, hlc⟩ | e | ⟨_, e⟩
      · rw [e] at hts; exact fromRes hts
      · rw [e] at hts
        refine .inr ⟨(JumpTarget.resolved.inj hts).symm, ?_, hcon⟩
        unfold localCond at hlc
        by_cases ho : d.opcode = op.JUMPI
        · exact ho
        · rw [if_pos (by simpa using ho)] at hlc; cases hlc
      · rw [e] at hts; cases hts
      · rw [e] at hts; exact fromRes hts
    · have hstat : d.flags.staticJump = true := by
        unfold Single InstData.isStaticJump at hsing
        simp only [Bool.and_eq_true] at hsing
        exact hsing.1.1.2
      refine ⟨g2, fun h => (by rw [hstat] at h; cases h), fun _ hc => ⟨hsing, ?_⟩⟩
      rcases g3 with g3 | ⟨hji, hncc⟩
      · rw [hstat] at g3; cases g3
      have hcon : d.flags.constJumpCond = false := by
        unfold InstData.hasConstJumpiCondition at hncc
        rw [hji] at hncc
        simpa using hncc
      obtain ⟨w, L, hL, hw, htw, hlast, hlc⟩ := r.const wf S ha hev (hunk hcon)
      rw [hxy] at hlast hlc
      have hlc' : localCond loc y.1 d = .unknown := by
        unfold localCond at hlc ⊢
        rw [ho]; exact hlc
      have hag : Again y.1 w (fixAi code limit q loc loc) := by
        refine fixAi_again (fun c hc st A h => ?_) (.inr (.inr hlast))
        have := r.again_block wf R ha hev S' ha' hev' hL hw hc A (st := st) (by rw [hxy]; exact h)
        rw [hxy] at this
        exact this
      rcases hcase with e | ⟨e, hlf⟩ | e | ⟨_, e⟩
      · rw [e] at hc ⊢
        rcases resolveJump_cases code (fixAi code limit q loc loc) y.1 d with ⟨_, _, h3⟩ | ⟨v, h3, h4, _⟩ | ⟨_, h3⟩
        · rw [h3]
          exact .inr (.inr ⟨rfl, hji, hcon⟩)
        · rw [h4]
          rcases hag with h | h | h
          · rw [h] at h3; cases h3
          · rw [h] at h3; cases h3
            exact .inl rfl
          · rw [h] at h3; cases h3
            right; left
            unfold resolveOperand
            dsimp only
            rw [htw, hdat]
        · rw [h3] at hc; exact absurd rfl hc
      · rw [hlc'] at hlf; cases hlf
      · rw [e] at hc; exact absurd hlc' hc
      · rw [e] at hc; exact absurd hlc' hc
  have hat : AtJumps q.insts (runAbstractInterp code limit q loc loc).1 := fun y hy d hd => (hfit y hy d hd).jump
  unfold blockAnalysis
  dsimp only
  split
  · exact ⟨(S'.commit hn hfit).hasDyn, M.commit hn hat⟩
  · exact ⟨S'.hasDyn, M⟩

/-- The control-flow passes leave a closed program whose flags are up to date and whose live instructions are
all entered. -/
theorem analyze_shut {code : Code} {limit : Nat} {p : Prog} (wf : FlowWf code p.insts) (S : Shut p) :
    Shut (analyzeFlow code limit p).1 ∧ CfgFresh (analyzeFlow code limit p).1 ∧ Anch (analyzeFlow code limit p).1 ∧
      MultiOk (analyzeFlow code limit p).1 := by
  have M0 : MultiOk p := fun i d hd hm => by rw [(wf.fresh i d hd).2.2.2.1] at hm; cases hm
  obtain ⟨S1, R1, A1⟩ := refresh_shut S
  have hraw : ∀ (i : Nat) d, p.refresh.insts[i]? = some d → d.flags.staticJump = false ∧ d.flags.constJumpCond = false := by
    intro i d hd
    obtain ⟨d0, hd0, s⟩ := refresh_sameJump hd
    have := wf.fresh i d0 hd0
    exact ⟨s.sta.trans this.2.1, s.con.trans this.2.2.2.2⟩
  have hev1 := evolves_refresh p
  have S2 := local_shut (limit := limit) wf S1 hev1 hraw
  have hA := afterLocal (code := code) (limit := limit) hraw
  have hev2 := evolves_local code limit p.refresh {}
  have M2 : MultiOk (blockAnalysisLocal code limit p.refresh {}).1 := by
    obtain ⟨hn, hres⟩ := localRes_ok code limit p.refresh
    rw [blockAnalysisLocal_fst]
    exact M0.refresh.commit hn fun x hx d hd => by
      obtain ⟨b, e, t, st0, r⟩ := hres x hx
      have := r.get
      rw [hd] at this; cases this
      exact r.jump
  rw [analyzeFlow_fst]
  revert S2 hA hev2 M2
  generalize blockAnalysisLocal code limit p.refresh {} = r
  intro S2 hA hev2 M2
  obtain ⟨S3, R3, A3⟩ := refresh_shut S2
  obtain ⟨S4, M4⟩ := global_shut wf S1 R1 A1 hev1 S3 A3 (hev2.trans (evolves_refresh _)) hA M2.refresh
  obtain ⟨S5, R5, A5⟩ := refresh_shut S4
  exact ⟨S5, R5, A5, M4.refresh⟩

theorem ends_nil {t j : Nat} : Ends (AMap.get ([] : Redirects)) t j ↔ t = j := by
  constructor
  · intro h
    cases h with
    | stop _ => rfl
    | hop h _ => simp [AMap.get] at h
  · rintro rfl
    exact .stop rfl

/-- Such a program is ready for deduplication. -/
theorem steady_of {p : Prog} {ai : AIState} (S : Shut p) (R : CfgFresh p) (A : Anch p) (M : MultiOk p) :
    Steady { prog := p, ai := ai } where
  earlier := fun k v h => by simp [AMap.get] at h
  direct := fun k v h => by simp [AMap.get] at h
  dead := fun k v h => by simp [AMap.get] at h
  dyn := R.dyn
  exact := fun j d hd hj => by
    refine (R.reach j d hd hj).trans ⟨fun h => ⟨j, h, ends_nil.2 rfl⟩, ?_⟩
    rintro ⟨t, h, he⟩
    exact ends_nil.1 he ▸ h
  anch := A
  alive := fun j ⟨d, hd, h⟩ => ⟨d, hd, (S.rj_live R hd h).1⟩
  clean := fun i d hd hl hs => by
    have ht : d.data ∈ p.targetsOf i d := single_target hs hl
    refine ⟨rfl, S.tgt i d _ hd ht, ?_⟩
    show p.isLeader d.data = true
    rcases S.dest i d hd hs with h | ⟨e, h1, h2⟩
    · rw [h]
      exact leader_after (Nat.succ_pos i) (by rw [Nat.add_sub_cancel]; exact hd) hl (Single.branching hs)
    · refine RJ.leader ⟨e, h1, ?_⟩
      unfold InstData.isReachableJumpdest
      rw [h2, (R.reach _ e h1 h2).2 ⟨i, d, hd, ht⟩]
      simp
  lands := fun i d hd hl hs => by
    rcases S.dest i d hd hs with h | h
    · exact .inr (Nat.le_of_eq h)
    · exact .inl h
  multi := fun i d hd hl hm => by
    obtain ⟨h1, h2, h3⟩ := M i d hd hm
    exact ⟨h1, h2, h3, S.mdest i d hd hm⟩
  jumps := fun i d hd hj => S.on i d hd (.inr hj)

/-! ## Parsed programs -/

theorem parse_jump_data {g : UInt8 → BitVec 16} {spec : SpecId} {bytes : List UInt8} {i : Nat} {d : InstData}
    (hd : (parse g spec bytes).toProg.insts[i]? = some d) (hj : d.isJump = true) : d.data = 0 := by
  obtain ⟨pc, hpc⟩ := toProg_get hd
  rcases parse_mem g spec bytes (List.mem_of_getElem? hpc) with hm | hm
  · obtain ⟨_, _, _, it0, _, _, h⟩ := parseLoop_mem _ bytes bytes 0 [] (Or.inr (by simp)) _ hm
    have h := congrArg (·.data) h
    dsimp only at h
    rw [h]
    show (instDataField d.opcode _ _ _).1 = 0
    unfold instDataField
    rcases jump_cases hj with ho | ho <;> rw [ho]
    · rw [if_neg (by decide), if_neg (by decide)]
    · rw [if_neg (by decide), if_neg (by decide)]
  · rw [Prod.mk.injEq] at hm
    rw [hm.2]; rfl

theorem parse_on {g : UInt8 → BitVec 16} {spec : SpecId} {bytes : List UInt8} {i : Nat} {d : InstData}
    (hd : (parse g spec bytes).toProg.insts[i]? = some d) (hj : d.isJumpdest = true ∨ d.isJump = true) :
    d.flags.disabled = false ∧ d.flags.unknown = false := by
  obtain ⟨a1, a2⟩ := parse_avail hd
  have hact : opActive (makeMap g spec d.opcode) = true := by
    rw [opActive_iff]
    have : d.opcode = op.JUMPDEST ∨ d.opcode = op.JUMP ∨ d.opcode = op.JUMPI := by
      rcases hj with h | h
      · unfold InstData.isJumpdest at h
        exact .inl (by simpa using h)
      · exact .inr (jump_cases h)
    rcases this with h | h | h <;> rw [h] <;> exact ⟨SpecId.FRONTIER, by decide, Nat.zero_le _⟩
  unfold opActive at hact
  simp only [Bool.not_eq_true', Bool.or_eq_false_iff] at hact
  rw [a1, a2]
  exact ⟨hact.2, hact.1⟩

theorem shut_parse {g : UInt8 → BitVec 16} {spec : SpecId} {bytes : List UInt8} (hlen : bytes.length ≤ 2 ^ 31) :
    Shut (parse g spec bytes).toProg := by
  have wf := flowWf_parse g spec bytes hlen
  have hon := fun i d => parse_on (g := g) (spec := spec) (bytes := bytes) (i := i) (d := d)
  have hdat := fun i d => parse_jump_data (g := g) (spec := spec) (bytes := bytes) (i := i) (d := d)
  revert wf hon hdat
  generalize (parse g spec bytes).toCode = code
  generalize (parse g spec bytes).toProg = p
  intro wf hon hdat
  have hsta : ∀ (i : Nat) d, p.insts[i]? = some d → d.isStaticJump = false := fun i d hd => by
    unfold InstData.isStaticJump
    rw [(wf.fresh i d hd).2.1, Bool.and_false]
  have hsing : ∀ (i : Nat) d, p.insts[i]? = some d → Single d = false := fun i d hd => by
    unfold Single
    rw [hsta i d hd]; rfl
  have hlive : ∀ (i : Nat) d, p.insts[i]? = some d → d.flags.deadCode = false := fun i d hd => (wf.fresh i d hd).1
  refine ⟨?_, fun i d t hd ht => ?_, fun i d hd _ _ _ j e he _ => hlive j e he, fun i d e hd he _ hx => ?_,
    fun i d hd hs => ?_, fun i d hd hj _ => ?_, fun i d hd hm => ?_, fun j e he h => hon j e he h, fun j e he ho => ?_⟩
  · cases hp : p.insts with
    | nil => exact absurd hp wf.ne
    | cons d l => exact ⟨d, rfl, hlive 0 d (by rw [hp]; rfl)⟩
  · unfold Prog.targetsOf at ht
    rw [hsta i d hd] at ht
    simp at ht
  · rw [hlive _ e he] at hx; cases hx
  · rw [hsing i d hd] at hs; cases hs
  · rw [hdat i d hd hj]; exact Nat.zero_le _
  · rw [(wf.fresh i d hd).2.2.2.1] at hm; cases hm
  · have hlt := (List.getElem?_eq_some_iff.1 he).1
    rcases Nat.lt_or_ge (j + 1) p.insts.length with h | h
    · exact h
    · exfalso
      obtain ⟨o1, o2⟩ := hon j e he (.inr (by unfold InstData.isJump; rw [ho]; rfl))
      rcases wf.last j e he (by omega) with h1 | h1
      · unfold Halts at h1
        rw [o1, o2, ho] at h1
        simp [op.JUMPI] at h1
      · rw [ho] at h1
        exact absurd h1 (by decide)

/-- The analysed program is in the state deduplication starts from. -/
theorem steady_analyze (g : UInt8 → BitVec 16) (spec : SpecId) (limit : Nat) {bytes : List UInt8}
    (hlen : bytes.length ≤ 2 ^ 31) :
    Steady { prog := (analyzeBytes g spec limit bytes).1, ai := (analyzeBytes g spec limit bytes).2 } := by
  obtain ⟨h1, h2, h3, h4⟩ := analyze_shut (limit := limit) (flowWf_parse g spec bytes hlen) (shut_parse hlen)
  exact steady_of h1 h2 h3 h4

end Verif
