import Verif.Model.Exit
import Verif.Lemmas.DseBlock
/-!
# Exits with stack inspection on
-/

namespace Verif
open Spec

section
variable {E : Type}

/-- Synchronising does not look at the buffer or the trace. -/
theorem sync_mem (t : TInst E) (cx : SCx E) (m : Int → Word) (tr : List (Ev E)) :
    SCx.sync t { cx with mem := m, trace := tr } =
      (SCx.sync t cx).map fun c => { c with mem := m, trace := tr } := by
  unfold SCx.sync
  dsimp only
  split
  · rfl
  · split
    · rfl
    · rw [Option.map_map]
      rfl

theorem scxExit_eq (k : ExitKind) (argLen : Int) (t : TInst E) (cx : SCx E) :
    SCx.exit k argLen t cx = match k with
      | .halt => some ((SCx.saveLen t cx).lenVar, (SCx.saveLen t cx).materializeLive.mem)
      | .common => (SCx.sync t (SCx.spAfterInputs t (SCx.saveLen t cx))).map fun cx =>
          (cx.lenVar, cx.materializeLive.mem)
      | .constReturn => ((SCx.saveLen t cx).popIgnore 2).map fun cx => (argLen, cx.mem) := by
  unfold SCx.exit SCx.saveLen
  by_cases h : cx.secOff + t.diff = cx.storedOff
  · simp only [h, if_true]
    cases k <;> rfl
  · simp only [h, if_false]
    cases k <;> rfl

/-- Below the operands, the caller finds what the section would leave after a plain step. -/
theorem exit_step {t : TInst E} {cx c1 : SCx E} {k : ExitKind} (argLen : Int) (hsec : cx.secOff = cx.vs.top)
    (hn : t.noop = false) (ho : t.out = 0)
    (hk : (k = .halt ∧ t.lower = .nop ∧ t.inp = 0) ∨ (k = .common ∧ t.lower = .builtin))
    (he : SCx.step t cx = some c1) :
    ∃ len buf, SCx.exit k argLen t cx = some (len, buf) ∧ len = c1.lenVar ∧
      ∀ a : Int, a < cx.startLen + cx.secOff - t.inp → buf a = c1.materializeLive.mem a := by
  rw [step_compiled hn] at he
  have hs1 : (SCx.saveLen t cx).startLen = cx.startLen ∧ (SCx.saveLen t cx).secOff = cx.secOff ∧
      (SCx.saveLen t cx).vs = cx.vs := by
    unfold SCx.saveLen; split <;> exact ⟨rfl, rfl, rfl⟩
  rw [scxExit_eq]
  rw [if_neg (by omega)] at he
  generalize SCx.saveLen t cx = c0 at he hs1
  obtain ⟨s1, s2, s3⟩ := hs1
  rcases hk with ⟨rfl, hl, hi⟩ | ⟨rfl, hl⟩
  · have hlv : t.lower.leaves = false := by rw [hl]; rfl
    simp only [hlv, Bool.false_eq_true, if_false] at he
    have hb : SCx.body t c0 = some c0 := by unfold SCx.body; rw [hl]
    have hd : t.diff = 0 := by unfold TInst.diff; rw [hi, ho, hl]; rfl
    have hsy : SCx.sync t c0 = some c0 := by
      unfold SCx.sync
      rw [if_pos (by rw [s2, s3, hd]; omega)]
    rw [hb, Option.bind_some, hsy, Option.map_some, Option.some.injEq] at he
    subst he
    exact ⟨_, _, rfl, rfl, fun a _ => rfl⟩
  · have hlv : t.lower.leaves = false := by rw [hl]; rfl
    simp only [hlv, Bool.false_eq_true, if_false] at he
    have hb : SCx.body t c0 = some
        { SCx.spAfterInputs t c0 with
          mem := SCx.writeOut t ((SCx.spAfterInputs t c0).startLen + (SCx.spAfterInputs t c0).secOff - t.inp)
            (t.act ((SCx.spAfterInputs t c0).memArgs t.inp)).1 (SCx.spAfterInputs t c0).mem
          trace := .ran (t.act ((SCx.spAfterInputs t c0).memArgs t.inp)).2 :: (SCx.spAfterInputs t c0).trace } := by
      unfold SCx.body; rw [hl]; rfl
    have hp1 : (SCx.spAfterInputs t c0).startLen = c0.startLen := rfl
    have hp2 : (SCx.spAfterInputs t c0).secOff = c0.secOff := rfl
    rw [hb, Option.bind_some] at he
    generalize hc : SCx.spAfterInputs t c0 = c2 at he hp1 hp2 ⊢
    rw [sync_mem] at he
    cases hsy : SCx.sync t c2 with
    | none => rw [hsy] at he; simp at he
    | some c3 =>
      rw [hsy, Option.map_some, Option.map_some, Option.some.injEq] at he
      have hm : c3.mem = c2.mem := by
        unfold SCx.sync at hsy
        dsimp only at hsy
        split at hsy
        · cases hsy; rfl
        · split at hsy
          · simp at hsy
          · obtain ⟨vs, _, rfl⟩ := Option.map_eq_some_iff.1 hsy
            rfl
      refine ⟨_, _, rfl, by rw [← he], fun a ha => ?_⟩
      rw [← he]
      unfold SCx.materializeLive SCx.materializeRange
      dsimp only
      have hw : SCx.writeOut t (c2.startLen + c2.secOff - t.inp) (t.act (c2.memArgs t.inp)).1 c2.mem a =
          c3.mem a := by
        rw [hm]
        unfold SCx.writeOut
        rw [if_neg (by omega), if_neg (by omega)]
      rw [hw]

/-- How the last instruction of a section ends the call. -/
def EndsBy (k : ExitKind) (t : TInst E) : Prop :=
  t.out = 0 ∧ ((k = .halt ∧ t.lower = .nop ∧ t.inp = 0) ∨ (k = .common ∧ t.lower = .builtin))

theorem exitSteps_ok (k : ExitKind) (argLen : Int) (ts : List (TInst E)) (hne : ts ≠ [])
    {cx : SCx E} {S : List Word} {G : List Bool}
    {a : StackAcc} {I M : Int} (h : Inv cx S G) (hok : RunOk ts S) (hsh : Shape ts) (hf : Fits ts a I M)
    (hr : RunReadable ts G) (hb : cx.vs.base = -I) (hc : cx.vs.cap = I + M) (ht : cx.vs.top = a.diff)
    (hk : ∀ t, ts.getLast? = some t → EndsBy k t) :
    ∃ len buf, SCx.exitSteps k argLen ts cx = some (len, buf) ∧ len = (run ts S).length ∧
      ∀ (d : Nat) (w : Word), (maskRun ts G)[d]? = some true → (run ts S)[d]? = some w →
        buf ((run ts S).length - 1 - d) = w := by
  induction ts generalizing cx S G a with
  | nil => exact absurd rfl hne
  | cons t ts ih =>
    obtain ⟨hf1, hf2, hf3⟩ := hf.head
    cases ts with
    | nil =>
      obtain ⟨ho, hk⟩ := hk t rfl
      have hlv : t.lower.leaves = false := by
        rcases hk with ⟨_, hl, _⟩ | ⟨_, hl⟩ <;> rw [hl] <;> rfl
      obtain ⟨c1, e1, s1⟩ := step_ok hlv h hok.1 (by omega) (by omega) hr.1
      obtain ⟨len, buf, x1, x2, x3⟩ := exit_step argLen h.sec hsh ho hk e1
      have hl := s1.stored hsh
      obtain ⟨m1, m2⟩ := holdsM_of_inv s1.inv hl
      have hnl := next_length hok.1
      refine ⟨len, buf, x1, by rw [x2, hl]; rfl, fun d w hg hw => ?_⟩
      have hsl := h.len
      have hse := h.sec
      rw [x3 _ (by
        show ((next t S).length : Int) - 1 - d < _
        omega)]
      exact m2 d w hg hw
    | cons t' ts =>
      obtain ⟨c1, e1, s1⟩ := step_ok hsh.1 h hok.1 (by omega) (by omega) hr.1
      have k1 := relieve_keep c1
      have e2 : (a.process t.inp t.out).diff = a.diff + ((t.out : Int) - t.inp) := rfl
      obtain ⟨len, buf, x1, x2, x3⟩ := ih (by simp) (s1.inv.keep k1) hok.2 hsh.2 hf3 hr.2
        (by rw [k1.frame.base, s1.base]; exact hb) (by rw [k1.frame.cap, s1.cap]; exact hc)
        (by rw [k1.top, s1.top]; omega)
        (fun u hu => hk u (by rw [List.getLast?_cons_cons]; exact hu))
      exact ⟨len, buf, by rw [SCx.exitSteps, e1]; exact x1, x2, x3⟩

theorem runExit_ok (k : ExitKind) (argLen : Int) {cx : SCx E} {S : List Word} {G : List Bool}
    (secs : List (List (TInst E))) (hne : secs ≠ [])
    (hsec : ∀ ts ∈ secs, ts ≠ [] ∧ Shape ts ∧
      (ts.foldl (fun a t => a.process t.inp t.out) ({} : StackAcc)).inputs ≤ 65535 ∧
      (ts.foldl (fun a t => a.process t.inp t.out) ({} : StackAcc)).maxGrowth ≤ 32767)
    (h : HoldsM cx S G) (hm : G.length = S.length) (hok : RunOk secs.flatten S)
    (hr : RunReadable secs.flatten G)
    (hk : ∀ t, secs.flatten.getLast? = some t → EndsBy k t) :
    ∃ len buf, SCx.runExit k argLen secs cx = some (len, buf) ∧ len = (run secs.flatten S).length ∧
      ∀ (d : Nat) (w : Word), (maskRun secs.flatten G)[d]? = some true → (run secs.flatten S)[d]? = some w →
        buf ((run secs.flatten S).length - 1 - d) = w := by
  induction secs generalizing cx S G with
  | nil => exact absurd rfl hne
  | cons ts secs ih =>
    obtain ⟨h1, h2, h3, h4⟩ := hsec ts (by simp)
    cases secs with
    | nil =>
      have hfl : [ts].flatten = ts := by simp
      rw [hfl] at hok hr hk ⊢
      obtain ⟨I, M, hf, hi, hb, hc, ht, _, _⟩ := head_ok ts h hm hok h3 h4
      exact exitSteps_ok k argLen ts h1 hi hok h2 hf hr hb hc ht hk
    | cons us secs =>
      rw [List.flatten_cons] at hok hr hk ⊢
      obtain ⟨o1, o2⟩ := (runOk_append _ _ _).1 hok
      obtain ⟨r1, r2⟩ := (runReadable_append _ _ _).1 hr
      obtain ⟨c1, e1, m1, _⟩ := section_ok ts h1 h hm o1 h2 h3 h4 r1
      obtain ⟨len, buf, x1, x2, x3⟩ := ih (by simp) (fun ts hts => hsec ts (by simp [hts])) m1
        (maskRun_length ts S G o1 hm) o2 r2 (fun t htl => hk t (by
          rw [List.getLast?_append, htl]; rfl))
      refine ⟨len, buf, by rw [SCx.runExit, e1]; exact x1, ?_, ?_⟩
      · rw [run_append]; exact x2
      · rw [run_append, maskRun_append]; exact x3

end

/-- The instructions that end the call leave nothing and are lowered as `SCx.exit` assumes. -/
theorem exitKind_ends {F : Type} {code : Code} {st : AIState} {act : Nat → List Word → List Word × F}
    {clob : Nat → Int → Word} {i : Nat} {d : InstData} {k : ExitKind}
    (wf : Wf code (i, d)) (hk : exitKind st i d = some k) (hc : k ≠ .constReturn) (b : Bool) :
    EndsBy k (toT code st act clob (i, mark b d)) := by
  have hmk : ∀ (g : InstData), (mark b g).stackIo = g.stackIo ∧ (mark b g).opcode = g.opcode ∧
      (mark b g).flags.disabled = g.flags.disabled ∧ (mark b g).flags.unknown = g.flags.unknown := by
    intro g; unfold mark; split <;> exact ⟨rfl, rfl, rfl, rfl⟩
  obtain ⟨m1, m2, m3, m4⟩ := hmk d
  unfold exitKind at hk
  by_cases hoff : (d.flags.disabled || d.flags.unknown) = true
  · rw [if_pos hoff] at hk; simp at hk
  rw [if_neg hoff] at hk
  have hio := wf.io (by simpa using hoff)
  have hlow : ∀ o, d.opcode = o → lowerOf code st i (mark b d) = lowerOf code st i { mark b d with opcode := o } := by
    intro o ho
    rw [← ho, ← m2]
  have key : ∀ o : UInt8, d.opcode = o → o ∈ [op.STOP, op.INVALID, op.RETURN, op.REVERT, op.SELFDESTRUCT] →
      (mark b d).stackIo = tableStackIo o ∧
      lowerOf code st i (mark b d) = lowerPlain o (tableStackIo o).1 (st.constOperand i) := by
    intro o ho hmem
    have h1 : (mark b d).stackIo = tableStackIo o := by
      rw [m1, hio]
      show computeStackIo d.opcode _ = _
      rw [ho]
      unfold computeStackIo
      simp only [List.mem_cons, List.not_mem_nil, or_false] at hmem
      rcases hmem with rfl | rfl | rfl | rfl | rfl <;>
        rw [if_neg (by decide), if_neg (by decide), if_neg (by decide)]
    refine ⟨h1, ?_⟩
    unfold lowerOf InstData.isJump InstData.maySuspend
    rw [m2, m3, m4, h1, ho, if_neg hoff]
    simp only [List.mem_cons, List.not_mem_nil, or_false] at hmem
    rcases hmem with rfl | rfl | rfl | rfl | rfl <;>
      rw [if_neg (by decide), if_neg (by decide), if_neg (by decide), if_neg (by decide),
        if_neg (by decide), if_neg (by decide), if_neg (by decide), if_neg (by decide)]
  by_cases h1 : (d.opcode == op.STOP || d.opcode == op.INVALID) = true
  · rw [if_pos h1, Option.some.injEq] at hk
    rw [Bool.or_eq_true, beq_iff_eq, beq_iff_eq] at h1
    rcases h1 with h1 | h1
    · obtain ⟨e1, e2⟩ := key _ h1 (by decide)
      refine ⟨congrArg Prod.snd e1, .inl ⟨hk.symm, e2.trans rfl, congrArg Prod.fst e1⟩⟩
    · obtain ⟨e1, e2⟩ := key _ h1 (by decide)
      refine ⟨congrArg Prod.snd e1, .inl ⟨hk.symm, e2.trans rfl, congrArg Prod.fst e1⟩⟩
  rw [if_neg h1] at hk
  by_cases h2 : (d.opcode == op.RETURN || d.opcode == op.REVERT) = true
  · rw [if_pos h2] at hk
    have hk : k = .common := by
      split at hk
      · exact absurd (Option.some.inj hk).symm hc
      · exact (Option.some.inj hk).symm
    rw [Bool.or_eq_true, beq_iff_eq, beq_iff_eq] at h2
    rcases h2 with h2 | h2
    · obtain ⟨e1, e2⟩ := key _ h2 (by decide)
      refine ⟨congrArg Prod.snd e1, .inr ⟨hk, e2.trans rfl⟩⟩
    · obtain ⟨e1, e2⟩ := key _ h2 (by decide)
      refine ⟨congrArg Prod.snd e1, .inr ⟨hk, e2.trans rfl⟩⟩
  rw [if_neg h2] at hk
  split at hk
  · rename_i h3
    obtain ⟨e1, e2⟩ := key _ (beq_iff_eq.1 h3) (by decide)
    exact ⟨congrArg Prod.snd e1, .inr ⟨(Option.some.inj hk).symm, e2.trans rfl⟩⟩
  · simp at hk

end Verif
