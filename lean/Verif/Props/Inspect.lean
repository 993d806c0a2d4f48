import Verif.Lemmas.Exit
import Verif.Spec.Exit
import Verif.Props.Dse
/-!
# C44: with stack inspection on, the caller finds the EVM's final stack
-/

namespace Verif
open Spec
variable {F : Type}

/-- C44, for the exits by STOP, INVALID, SELFDESTRUCT, and by RETURN and REVERT whose operands are not all
known when compiling (missing: constant operands, see `C44_return_fails`; failing checks, see
`C44_check_fails`; failures inside builtins, which are not modelled). After a block that ends the call the
caller finds exactly the EVM's final stack: its length and every word, whatever was deferred, skipped or
left in place by the passes. -/
theorem C44_exit_partial (spec : SpecId) (code : Code) (st : AIState)
    (act : Nat → List Word → List Word × Option F) (clob : Nat → Int → Word)
    (l l' : List (Nat × InstData)) (S : List Word) (cx : SCx (Option F)) (argLen : Int)
    (wf : ∀ p ∈ l, Wf code p) (snap : ∀ p ∈ l, FullSnap st p)
    (hw : (blockAcc l).inputs + (blockAcc l).maxGrowth ≤ 32767)
    (hpure : ∀ p ∈ l, stackOnly p.2.opcode.toNat = true → ∀ args, (act p.1 args).2 = none)
    (he : dseBlock true code st l = some l')
    (hok : RunOk (l.map (toT code st act clob)) S) (h : Holds cx S)
    (p : Nat × InstData) (hp : l.getLast? = some p) (k : ExitKind) (hk : exitKind st p.1 p.2 = some k)
    (hc : k ≠ .constReturn) :
    ∃ len buf, SCx.runExit k argLen ((splitSections spec l').map (List.map (toT code st act clob))) cx =
        some (len, buf) ∧ Shows len buf (run (l.map (toT code st act clob)) S) := by
  have hm : (List.replicate S.length true).length = S.length := by simp
  obtain ⟨b1, b2, b3, b4, b5, b6, b7⟩ := block_ok (act := act) (clob := clob) true l.length wf (fun p hp => snap p (List.mem_of_mem_take hp)) hw hpure
    (by rw [List.take_length]; exact hok) he
  rw [← b1.length, List.take_length, b1.length, List.take_length] at b5 b6
  rw [← b1.length, List.take_length] at b3 b4 b7
  have hfl : ((splitSections spec l').map (List.map (toT code st act clob))).flatten =
      l'.map (toT code st act clob) := by rw [← List.map_flatten, split_flatten]
  have hpm : p ∈ l := List.mem_of_getLast? hp
  have hne : l ≠ [] := List.ne_nil_of_mem hpm
  obtain ⟨len, buf, x1, x2, x3⟩ := runExit_ok k argLen ((splitSections spec l').map (List.map (toT code st act clob)))
    (fun h0 => by
      rw [h0, List.flatten_nil] at hfl
      have h1 := congrArg List.length hfl
      rw [List.length_map, b1.length, List.length_nil] at h1
      exact hne (List.length_eq_zero_iff.1 h1.symm))
    (fun ts hts => by
      obtain ⟨s1, s2, s3, s4, _⟩ := sections_shape (act := act) (clob := clob) spec b1 (fun p hp => (wf p hp).noop)
        hw b2 ts hts
      exact ⟨s1, s2, s3, s4⟩) ((holds_iff hm (allTrue _)).2 h) hm
    (by rw [hfl]; exact b4) (by rw [hfl]; exact b3) (by
      rw [hfl]
      intro t ht
      rw [List.getLast?_map] at ht
      obtain ⟨p', hp', rfl⟩ := Option.map_eq_some_iff.1 ht
      rw [List.getLast?_eq_getElem?] at hp hp'
      obtain ⟨p0, b, h1, h2, _⟩ := b1.at_ _ _ hp'
      rw [b1.length, hp] at h1
      cases h1
      rw [h2]
      exact exitKind_ends (wf p hpm) hk hc b)
  rw [hfl] at x2 x3
  refine ⟨len, buf, x1, ?_⟩
  rw [← b5]
  refine ⟨x2, fun d w hw => x3 d w ?_ hw⟩
  have hml := maskRun_length (l'.map (toT code st act clob)) S _ b4 hm
  have hd : d < (run (l'.map (toT code st act clob)) S).length := by
    rcases Nat.lt_or_ge d (run (l'.map (toT code st act clob)) S).length with h | h
    · exact h
    · rw [List.getElem?_eq_none h] at hw; simp at hw
  exact b7 (by rw [b1.length]; exact Nat.le_refl _) (term_lives (.inl rfl)) d (by omega)

theorem runPrefix_sections {E : Type} (pre post : List (List (TInst E))) (hne : ∀ ts ∈ pre, ts ≠ []) (cx : SCx E) :
    SCx.runPrefix pre.flatten.length (pre ++ post) cx = SCx.runSections pre cx := by
  induction pre generalizing cx with
  | nil => cases post <;> rfl
  | cons ts pre ih =>
    have h0 : ts.length ≠ 0 := fun h => hne ts (by simp) (List.length_eq_zero_iff.1 h)
    obtain ⟨n, hn⟩ : ∃ n, (ts :: pre).flatten.length = n + 1 := by
      rw [List.flatten_cons, List.length_append]
      exact ⟨ts.length + pre.flatten.length - 1, by omega⟩
    have hn' := hn
    rw [List.flatten_cons, List.length_append] at hn'
    rw [hn, List.cons_append, SCx.runPrefix, if_pos (by omega), SCx.runSections,
      show n + 1 - ts.length = pre.flatten.length by omega]
    congr 1
    funext c
    exact ih (fun ts hts => hne ts (by simp [hts])) c

/-- C44 for a check that fails at the head of a section, when no instruction before it in the block was
skipped (missing: skipped ones, see `C44_check_fails`): the caller finds the EVM's stack at that point.
`pre` are the block's sections before the check. -/
theorem C44_check_partial {E : Type} (pre post : List (List (TInst E))) (S : List Word) (cx : SCx E)
    (hsec : ∀ ts ∈ pre, ts ≠ [] ∧ (∀ t ∈ ts.dropLast, t.lower.leaves = false) ∧ (∀ t ∈ ts, t.noop = false) ∧
      (ts.foldl (fun a t => a.process t.inp t.out) ({} : StackAcc)).inputs ≤ 65535 ∧
      (ts.foldl (fun a t => a.process t.inp t.out) ({} : StackAcc)).maxGrowth ≤ 32767)
    (hok : RunOk pre.flatten S) (h : Holds cx S) :
    ∃ len buf, SCx.failCheck pre.flatten.length (pre ++ post) cx = some (len, buf) ∧
      Shows len buf (run pre.flatten S) := by
  have hm : (List.replicate S.length true).length = S.length := by simp
  have hsh : ∀ ts : List (TInst E), (∀ t ∈ ts.dropLast, t.lower.leaves = false) → (∀ t ∈ ts, t.noop = false) →
      Shape ts := by
    intro ts
    induction ts with
    | nil => intro _ _; trivial
    | cons t ts ih =>
      intro h1 h2
      cases ts with
      | nil => exact h2 t (by simp)
      | cons u ts =>
        exact ⟨h1 t (by simp), ih (fun v hv => h1 v (by simp [hv])) (fun v hv => h2 v (by simp [hv]))⟩
  obtain ⟨r1, r2⟩ := masks_all pre.flatten S _ hok (fun t ht => by
    obtain ⟨ts, hts, htt⟩ := List.mem_flatten.1 ht
    exact (hsec ts hts).2.2.1 t htt) hm (allTrue _)
  obtain ⟨c, e, hh, _⟩ := sections_ok pre (fun ts hts => by
    obtain ⟨h1, h2, h3, h4, h5⟩ := hsec ts hts
    exact ⟨h1, hsh ts h2 h3, h4, h5⟩) ((holds_iff hm (allTrue _)).2 h) hm hok r1
  refine ⟨c.lenVar, c.mem, ?_, (holds_iff (maskRun_length _ _ _ hok hm) r2).1 hh⟩
  unfold SCx.failCheck
  rw [runPrefix_sections pre post (fun ts hts => (hsec ts hts).1), e]
  rfl

namespace InspectExample

/-- `CALLER; PUSH1 7; CALLDATASIZE; PUSH0; RETURN` with one word below: the length to return is not
known. -/
def blk : List (Nat × InstData) :=
  [(0, { opcode := 0x33, stackIo := (0, 1) }), (1, { opcode := 0x60, stackIo := (0, 1) }),
    (2, { opcode := 0x36, stackIo := (0, 1) }), (3, { opcode := 0x5f, stackIo := (0, 1) }),
    (4, { opcode := 0xf3, stackIo := (2, 0) })]

def code : Code := { codeLen := 7, imm := fun i => if i = 1 then 7 else 0, target := fun _ => none }

def st : AIState := (interpBlock code 1000 blk {} []).2

/-- CALLER is 0xca11, CALLDATASIZE is 4. -/
def act (i : Nat) (args : List Word) : List Word × Option (List Word) :=
  if i = 0 then ([0xca11], none) else if i = 1 then ([7], none) else if i = 2 then ([4], none)
  else if i = 3 then ([0], none) else ([], some args)

def cx : SCx (Option (List Word)) := { lenVar := 1, mem := fun _ => 9 }

/-- `PUSH1 7; PUSH0; PUSH0; RETURN`. -/
def ret : List (Nat × InstData) :=
  [(0, { opcode := 0x60, stackIo := (0, 1) }), (1, { opcode := 0x5f, stackIo := (0, 1) }),
    (2, { opcode := 0x5f, stackIo := (0, 1) }), (3, { opcode := 0xf3, stackIo := (2, 0) })]

def retCode : Code := { codeLen := 5, imm := fun i => if i = 0 then 7 else 0, target := fun _ => none }

def retSt : AIState := (interpBlock retCode 1000 ret {} []).2

def retAct (i : Nat) (args : List Word) : List Word × Option (List Word) :=
  if i = 0 then ([7], none) else if i = 1 then ([0], none) else if i = 2 then ([0], none) else ([], some args)

/-- `CALLER; GAS; POP; POP; STOP`: the first POP begins a gas section. -/
def chk : List (Nat × InstData) :=
  [(0, { opcode := 0x33, stackIo := (0, 1) }), (1, { opcode := 0x5a, stackIo := (0, 1) }),
    (2, { opcode := 0x50, stackIo := (1, 0) }), (3, { opcode := 0x50, stackIo := (1, 0) }),
    (4, { opcode := 0x00, stackIo := (0, 0) })]

def chkSt : AIState := (interpBlock retCode 1000 chk {} []).2

def chkAct (i : Nat) (_ : List Word) : List Word × Option (List Word) :=
  if i = 0 then ([0xca11], none) else if i = 1 then ([5000], none) else ([], none)

/-- An empty stack over a cleared buffer. -/
def empty : SCx (Option (List Word)) := { mem := fun _ => 0 }

end InspectExample

open InspectExample in
/-- The hypotheses of `C44_exit_partial` hold for `blk`, and the caller finds all three words. -/
example : ∃ l', dseBlock true code st blk = some l' ∧ ∃ len buf,
    SCx.runExit .common 1 ((splitSections SpecId.CANCUN l').map (List.map (toT code st act (fun _ _ => 0)))) cx =
      some (len, buf) ∧ len = 3 ∧ buf 0 = 9 ∧ buf 1 = 0xca11 ∧ buf 2 = 7 := by
  have wf : ∀ p ∈ blk, Wf code p := fun p hp =>
    wfCheck_ok ((List.all_eq_true.1 (by decide +kernel : blk.all (wfCheck code) = true)) p hp)
  obtain ⟨l', he⟩ : ∃ l', dseBlock true code st blk = some l' :=
    C48_completes_partial true code st blk wf (by decide +kernel) (by decide +kernel)
  refine ⟨l', he, ?_⟩
  obtain ⟨len, buf, e, h1, h2⟩ := C44_exit_partial SpecId.CANCUN code st act (fun _ _ => 0) blk l' [9] cx 1 wf
    (fun p hp => by
      have := (List.all_eq_true.1 (by decide +kernel : (blk.all fun p =>
        (st.inputs p.1).length == p.2.stackIo.1) = true)) p hp
      exact fun _ => .inl (by simpa using this))
    (by decide +kernel)
    (fun p hp ho args => by
      simp only [blk, List.mem_cons, List.not_mem_nil, or_false] at hp
      rcases hp with rfl | rfl | rfl | rfl | rfl <;> first | rfl | exact absurd ho (by decide))
    he (runCheck_ok (by decide +kernel)) ⟨rfl, fun d w hd => by
      cases d with
      | zero => simpa [cx] using hd
      | succ d => simp at hd⟩
    (4, { opcode := 0xf3, stackIo := (2, 0) }) rfl .common (by decide +kernel) (by decide)
  have hr : run (blk.map (toT code st act (fun _ _ => 0))) [9] = [7, 0xca11, 9] := by decide +kernel
  rw [hr] at h1 h2
  exact ⟨len, buf, e, h1, h2 2 9 rfl, h2 1 0xca11 rfl, h2 0 7 rfl⟩

open InspectExample in
/-- C44 fails for RETURN with constant operands: after `PUSH1 7; PUSH0; PUSH0; RETURN` the EVM's stack
holds 7, but the caller finds the length it passed in, 0. -/
theorem C44_return_fails : ∃ l', dseBlock true retCode retSt ret = some l' ∧
    RunOk (ret.map (toT retCode retSt retAct (fun _ _ => 0))) [] ∧ Holds empty [] ∧
    run (ret.map (toT retCode retSt retAct (fun _ _ => 0))) [] = [7] ∧
    exitKind retSt 3 { opcode := 0xf3, stackIo := (2, 0) } = some .constReturn ∧
    ∃ buf, SCx.runExit .constReturn 0
      ((splitSections SpecId.CANCUN l').map (List.map (toT retCode retSt retAct (fun _ _ => 0)))) empty =
      some (0, buf) ∧ ¬ Shows 0 buf [7] := by
  have key : ((dseBlock true retCode retSt ret).bind fun l' => (SCx.runExit .constReturn 0
      ((splitSections SpecId.CANCUN l').map (List.map (toT retCode retSt retAct (fun _ _ => 0)))) empty).map
      fun r => r.1) = some 0 := by decide +kernel
  obtain ⟨l', h1, h2⟩ := Option.bind_eq_some_iff.1 key
  obtain ⟨⟨len, buf⟩, h3, h4⟩ := Option.map_eq_some_iff.1 h2
  change len = 0 at h4
  subst h4
  refine ⟨l', h1, runCheck_ok (by decide +kernel), ⟨rfl, fun d w hd => by simp at hd⟩, by decide +kernel,
    by decide +kernel, buf, h3, fun h => ?_⟩
  exact absurd h.1 (by decide)

open InspectExample in
/-- C44 fails for failing checks: in `CALLER; GAS; POP; POP; STOP` the gas of the POPs is charged after two
words were pushed. CALLER was skipped because both words are popped in the same block, so when that check
fails the caller finds length 2 but whatever was in the buffer in place of the caller's address. -/
theorem C44_check_fails : ∃ l', dseBlock true retCode chkSt chk = some l' ∧
    RunOk (chk.map (toT retCode chkSt chkAct (fun _ _ => 0))) [] ∧ Holds empty [] ∧
    run ((chk.take 2).map (toT retCode chkSt chkAct (fun _ _ => 0))) [] = [5000, 0xca11] ∧
    ∃ buf, SCx.failCheck 2
      ((splitSections SpecId.CANCUN l').map (List.map (toT retCode chkSt chkAct (fun _ _ => 0)))) empty =
      some (2, buf) ∧ ¬ Shows 2 buf [5000, 0xca11] ∧ buf 0 = 0 := by
  have key : ((dseBlock true retCode chkSt chk).bind fun l' => (SCx.failCheck 2
      ((splitSections SpecId.CANCUN l').map (List.map (toT retCode chkSt chkAct (fun _ _ => 0)))) empty).map
      fun r => (r.1, r.2 0)) = some (2, 0) := by decide +kernel
  obtain ⟨l', h1, h2⟩ := Option.bind_eq_some_iff.1 key
  obtain ⟨⟨len, buf⟩, h3, h4⟩ := Option.map_eq_some_iff.1 h2
  simp only [Prod.mk.injEq] at h4
  obtain ⟨h4, h5⟩ := h4
  subst h4
  refine ⟨l', h1, runCheck_ok (by decide +kernel), ⟨rfl, fun d w hd => by simp at hd⟩, by decide +kernel,
    buf, h3, fun h => ?_, h5⟩
  have := h.2 1 0xca11 rfl
  rw [show ((([5000, 0xca11] : List Word).length : Nat) : Int) - 1 - (1 : Nat) = 0 by decide, h5] at this
  exact absurd this (by decide)

open InspectExample in
/-- `C44_check_partial` on the sections of `chk` as they are before the pass skips CALLER. -/
example : ∃ len buf, SCx.failCheck 2
    ((splitSections SpecId.CANCUN chk).map (List.map (toT retCode chkSt chkAct (fun _ _ => 0)))) empty =
      some (len, buf) ∧ Shows len buf [5000, 0xca11] := by
  have := C44_check_partial [(chk.take 2).map (toT retCode chkSt chkAct (fun _ _ => 0))]
    [(chk.drop 2).map (toT retCode chkSt chkAct (fun _ _ => 0))] [] empty
    (fun ts hts => by
      rw [List.mem_singleton] at hts
      subst hts
      exact ⟨by decide +kernel, by decide +kernel, by decide +kernel, by decide +kernel, by decide +kernel⟩)
    (by rw [List.flatten_singleton]; exact runCheck_ok (by decide +kernel)) ⟨rfl, fun d w hd => by simp at hd⟩
  rwa [show run [(chk.take 2).map (toT retCode chkSt chkAct (fun _ _ => 0))].flatten [] = [5000, 0xca11] by
    decide +kernel] at this

end Verif
