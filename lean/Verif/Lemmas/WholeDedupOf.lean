import Verif.Lemmas.WholeDedupSim
import Verif.Lemmas.DedupParse
/-!
# What is known when a deduplicated program is compiled
-/

namespace Verif
open Spec
variable {F : Type}

theorem parse_avail {g : UInt8 → BitVec 16} {spec : SpecId} {bytes : List UInt8} {i : Nat} {d : InstData}
    (hd : (parse g spec bytes).toProg.insts[i]? = some d) :
    d.flags.unknown = (makeMap g spec d.opcode).isUnknown ∧ d.flags.disabled = (makeMap g spec d.opcode).isDisabled := by
  obtain ⟨pc, hpc⟩ := toProg_get hd
  rcases parse_mem g spec bytes (List.mem_of_getElem? hpc) with hm | hm
  · obtain ⟨_, _, _, it0, _, _, h⟩ := parseLoop_mem _ bytes bytes 0 [] (Or.inr (by simp)) _ hm
    dsimp only at h
    exact ⟨congrArg (·.flags.unknown) h, congrArg (·.flags.disabled) h⟩
  · rw [Prod.mk.injEq] at hm
    have hact : opActive (makeMap g spec op.STOP) = true := by
      rw [opActive_iff]
      exact ⟨SpecId.FRONTIER, by decide, Nat.zero_le _⟩
    unfold opActive at hact
    simp only [Bool.not_eq_true', Bool.or_eq_false_iff] at hact
    rw [hm.2]
    show false = (makeMap g spec op.STOP).isUnknown ∧ false = (makeMap g spec op.STOP).isDisabled
    rw [hact.1, hact.2]
    exact ⟨rfl, rfl⟩

theorem markDead_sameJump (fuel : Nat) : ∀ (p : Prog) (i : Nat) (d' : InstData), (markDead fuel p).insts[i]? = some d' →
    ∃ d, p.insts[i]? = some d ∧ SameJump d d' := by
  have mark : ∀ (p : Prog) (i : Nat) (d' : InstData), (markLoop p.hasDyn 0 none p.insts)[i]? = some d' →
      ∃ d, p.insts[i]? = some d ∧ SameJump d d' := by
    intro p i d' hd'
    obtain ⟨d, hd, _⟩ := (evolves_markLoop p.hasDyn p.insts 0 none).back hd'
    refine ⟨d, hd, ?_⟩
    rcases markLoop_get _ _ _ _ i d d' hd hd' with rfl | rfl
    · exact .refl _
    · exact ⟨rfl, rfl, rfl, rfl, rfl, rfl⟩
  induction fuel with
  | zero => intro p i d' h; exact ⟨d', h, .refl _⟩
  | succ n ih =>
    intro p i d' h
    rw [markDead] at h
    dsimp only at h
    split at h
    · obtain ⟨d2, h2, s2⟩ := ih _ i d' h
      obtain ⟨d1, h1, s1⟩ := recompute_sameJump h2
      obtain ⟨d0, h0, s0⟩ := mark p i d1 h1
      exact ⟨d0, h0, ⟨s2.op.trans (s1.op.trans s0.op), s2.inv.trans (s1.inv.trans s0.inv),
        s2.mul.trans (s1.mul.trans s0.mul), s2.sta.trans (s1.sta.trans s0.sta), s2.con.trans (s1.con.trans s0.con),
        s2.dat.trans (s1.dat.trans s0.dat)⟩⟩
    · exact mark p i d' h

theorem refresh_static {p : Prog} (hp : ∀ (i : Nat) d, p.insts[i]? = some d → d.flags.staticJump = false) {i : Nat}
    {d : InstData} (hd : p.refresh.insts[i]? = some d) : d.flags.staticJump = false := by
  obtain ⟨d1, h1, s1⟩ := markDead_sameJump _ _ i d hd
  obtain ⟨d0, h0, s0⟩ := recompute_sameJump h1
  rw [s1.sta, s0.sta]
  exact hp i d0 h0

theorem dedupProg_rounds {loc : AIState} {r : Prog × AIState} {c : DState} (h : dedupProg loc r = some c) :
    Rounds loc { prog := r.1, ai := r.2 } c := by
  unfold dedupProg at h
  obtain ⟨s1, h1, h2⟩ := Option.bind_eq_some_iff.1 h
  obtain ⟨b, hb, ho⟩ := dedup_rounds _ h1
  exact .round hb ho h2

/-- The facts about an analysed program that do not concern deduplication. -/
structure Analysed (g : UInt8 → BitVec 16) (spec : SpecId) (limit : Nat) (bytes : List UInt8) (r : Prog × AIState) :
    Prop where
  sound : Sound (parse g spec bytes).toCode (parse g spec bytes).toProg.insts
    (shallow (parse g spec bytes).toProg.insts) r.1
  snap : SnapOk (parse g spec bytes).toCode (parse g spec bytes).toProg.insts
    (shallow (parse g spec bytes).toProg.insts) r.2
  out : OutOk (parse g spec bytes).toCode (parse g spec bytes).toProg.insts
    (shallow (parse g spec bytes).toProg.insts) r.2
  flagged : Flagged r.1
  dec : Decoded (parse g spec bytes).toCode r.1.insts
  ev : Evolves (parse g spec bytes).toProg.refresh.insts r.1.insts
  noswap : NoSwapOut (parse g spec bytes).toProg.insts r.2
  exp : ExpOut (parse g spec bytes).toProg.insts r.2

theorem analysed_of (g : UInt8 → BitVec 16) (spec : SpecId) (limit : Nat) {bytes : List UInt8}
    (hlen : bytes.length ≤ 2 ^ 31) : Analysed g spec limit bytes (analyzeBytes g spec limit bytes) := by
  have hwf := flowWf_parse g spec bytes hlen
  obtain ⟨h1, h2, h3, h4⟩ := sound_bytes (g := g) (spec := spec) (limit := limit) hlen
  refine ⟨h1, h2, h3, h4, decoded_analyze g spec limit bytes hlen, ?_, ?_, ?_⟩
  · unfold analyzeBytes
    dsimp only
    rw [analyzeFlow_fst]
    generalize (parse g spec bytes).toProg.refresh = q
    exact (((evolves_local _ limit q {}).trans (evolves_refresh _)).trans (evolves_blockAnalysis _ limit _ _ _)).trans
      (evolves_refresh _)
  · unfold analyzeBytes
    exact analyzeFlow_noSwap (limit := limit) hwf
  · unfold analyzeBytes
    exact analyzeFlow_exp (limit := limit) hwf

theorem dsetup_of {g : UInt8 → BitVec 16} {spec : SpecId} {limit : Nat} {bytes : List UInt8} {r : Prog × AIState}
    {c : DState} (hlen : bytes.length ≤ 2 ^ 31) (A : Analysed g spec limit bytes r)
    (hst : Steady { prog := r.1, ai := r.2 })
    (hplain : ∀ (i : Nat) d, r.1.insts[i]? = some d → d.flags.deadCode = false → Plain d)
    (hd : dedupProg (localSnapshots (parse g spec bytes).toCode limit (parse g spec bytes).toProg) r = some c) :
    DSetup (parse g spec bytes).toCode limit (parse g spec bytes).toProg.insts
      (shallow (parse g spec bytes).toProg.insts) (parse g spec bytes).toProg.refresh
      (localSnapshots (parse g spec bytes).toCode limit (parse g spec bytes).toProg)
      { prog := r.1, ai := r.2 } c := by
  have hwf := flowWf_parse g spec bytes hlen
  have hinst : ∀ (i : Nat) d, (parse g spec bytes).toProg.insts[i]? = some d → Wf (parse g spec bytes).toCode (i, d) :=
    fun i d hd => wf_of hlen (.refl _) hd
  have hsame : ∀ (i j : Nat) d e, (parse g spec bytes).toProg.insts[i]? = some d →
      (parse g spec bytes).toProg.insts[j]? = some e → e.opcode = d.opcode →
      e.flags.disabled = d.flags.disabled ∧ e.flags.unknown = d.flags.unknown := by
    intro i j d e hi hj he
    obtain ⟨a1, a2⟩ := parse_avail hi
    obtain ⟨b1, b2⟩ := parse_avail hj
    rw [a1, a2, b1, b2, he]
    exact ⟨rfl, rfl⟩
  have hrounds := dedupProg_rounds hd
  clear hd
  obtain ⟨h1, h2, h3, h4, hdec, hev, hn, he⟩ := A
  unfold localSnapshots at *
  revert hwf hinst hsame h1 h2 h3 h4 hdec hev hn he hrounds
  generalize (parse g spec bytes).toCode = code
  generalize (parse g spec bytes).toProg = p
  intro hwf hinst hsame hrounds h1 h2 h3 h4 hdec hev hn he
  obtain ⟨_, _, _, hcp⟩ := rounds_counterpart hst hdec hplain hrounds
  obtain ⟨s1, f1⟩ := refresh_sound hwf (sound_fresh (ok := shallow p.insts) hwf)
  refine ⟨hwf, hinst, hsame, fun _ _ h => h, s1, f1,
    fun i d hd => refresh_static (fun i d hd => (hwf.fresh i d hd).2.1) hd, ?_, hev, h1, h2, h3, h4, ⟨hn, ?_⟩, ⟨he, ?_⟩, hst,
    rounds_after hst rfl hrounds, hcp⟩
  · have hfold := local_fold code limit p.refresh p.refresh.blocks [] ({}, [])
      (by simpa using p.refresh.blocks_ok.sorted)
      (fun b hb => (p.refresh.blocks_ok.range b (by simpa using hb)).2.1) (by simp) (by simp)
    rw [List.nil_append] at hfold
    exact hfold.1
  · exact local_rec recStep_noSwap (evolves_refresh _) (fun _ _ _ _ => rfl)
  · exact local_rec recStep_exp (evolves_refresh _) (fun _ _ _ _ _ h => by simp at h)

/-- A deduplicated program, and the program with all blocks that it runs like. -/
theorem dcompiled_of {g : UInt8 → BitVec 16} {spec : SpecId} {limit : Nat} {bytes : List UInt8} {o : WOpts}
    {D : DCompiled} (hD : compileDedup o g spec limit bytes = some D) (hlen : bytes.length ≤ 2 ^ 31)
    (hst : Steady { prog := (analyzeBytes g spec limit bytes).1, ai := (analyzeBytes g spec limit bytes).2 })
    (hplain : ∀ (i : Nat) d, (analyzeBytes g spec limit bytes).1.insts[i]? = some d → d.flags.deadCode = false → Plain d) :
    ∃ (s c : DState) (C : Compiled),
      GoodC (parse g spec bytes).toProg.insts (shallow (parse g spec bytes).toProg.insts) o C ∧
      C.code = (parse g spec bytes).toCode ∧ C.prog.blocks = (analyzeBytes g spec limit bytes).1.blocks ∧
      s.prog = (analyzeBytes g spec limit bytes).1 ∧ c.redirects = D.redirects ∧ c.prog = D.prog ∧
      DSetup (parse g spec bytes).toCode limit (parse g spec bytes).toProg.insts
        (shallow (parse g spec bytes).toProg.insts) (parse g spec bytes).toProg.refresh
        (localSnapshots (parse g spec bytes).toCode limit (parse g spec bytes).toProg) s c ∧
      ∀ (F : Type) (env : Env F) (clob : Nat → Int → Word) (mem : Int → Word) (n : Nat),
        Placeless (parse g spec bytes).toProg.insts env → C.run env clob mem n ≠ .panic →
        DRel s c (C.run env clob mem n) (D.run env clob mem n) := by
  unfold compileDedup at hD
  dsimp only at hD
  have A := analysed_of g spec limit hlen
  revert hD hst hplain A
  generalize analyzeBytes g spec limit bytes = r
  intro hD hst hplain A
  obtain ⟨c, hc, hD⟩ := Option.bind_eq_some_iff.1 hD
  obtain ⟨bs, hbs, rfl⟩ := Option.map_eq_some_iff.1 hD
  have S := dsetup_of hlen A hst hplain hc
  obtain ⟨vs, hvs⟩ := S.compiles hbs
  exact ⟨_, c, _, S.good (spec := spec) hvs, rfl, rfl, rfl, rfl, rfl, S,
    fun F env clob mem n henv hne => S.run_sim hbs hvs henv n hne⟩

end Verif
