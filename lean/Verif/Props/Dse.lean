import Verif.Lemmas.DseTotal
import Verif.Lemmas.PushKnown
import Verif.Model.Flow
import Verif.Props.AbsInt
/-!
# C19: skipping dead stores is unobservable. C48: the pass completes. C49: pushes are known
-/

namespace Verif
open Spec
variable {F : Type}

/-- C19, for blocks whose recorded operands are complete (`FullSnap`; missing: blocks entered with
more words than the analysis tracks, see `C19_block_fails`). A block compiled after the pass performs exactly
the EVM's observable events — every effect on the EVM's operand values, every branch decision, every
stack shown to the caller — tracks the stack length, and leaves the EVM stack in the buffer unless the
block ends the call (also then, if the caller inspects the stack). Code generation does not panic. -/
theorem C19_block_partial (inspect : Bool) (spec : SpecId) (code : Code) (st : AIState)
    (act : Nat → List Word → List Word × Option F) (clob : Nat → Int → Word)
    (l l' : List (Nat × InstData)) (S : List Word) (cx : SCx (Option F))
    (wf : ∀ p ∈ l, Wf code p) (snap : ∀ p ∈ l, FullSnap st p)
    (hw : (blockAcc l).inputs + (blockAcc l).maxGrowth ≤ 32767)
    (hpure : ∀ p ∈ l, stackOnly p.2.opcode.toNat = true → ∀ args, (act p.1 args).2 = none)
    (he : dseBlock inspect code st l = some l')
    (hok : RunOk (l.map (toT code st act clob)) S) (h : Holds cx S) :
    ∃ cx', SCx.runSections ((splitSections spec l').map (List.map (toT code st act clob))) cx = some cx' ∧
      visible cx'.trace = visible (runEvents (l.map (toT code st act clob)) S) ++ visible cx.trace ∧
      cx'.lenVar = (run (l.map (toT code st act clob)) S).length ∧
      ((inspect = true ∨ ∀ p, l.getLast? = some p → staysInCall p.2) → Holds cx' (run (l.map (toT code st act clob)) S)) := by
  have hm : (List.replicate S.length true).length = S.length := by simp
  obtain ⟨b1, b2, b3, b4, b5, b6, b7⟩ := block_ok (act := act) (clob := clob) inspect l.length wf
    (fun p hp => snap p (List.mem_of_mem_take hp)) hw hpure
    (by rw [List.take_length]; exact hok) he
  rw [← b1.length, List.take_length, b1.length, List.take_length] at b5 b6
  rw [← b1.length, List.take_length] at b3 b4 b7
  have hfl : ((splitSections spec l').map (List.map (toT code st act clob))).flatten =
      l'.map (toT code st act clob) := by rw [← List.map_flatten, split_flatten]
  obtain ⟨c, e, hh, tr⟩ := sections_ok ((splitSections spec l').map (List.map (toT code st act clob)))
    (fun ts hts => by
      obtain ⟨s1, s2, s3, s4, _⟩ := sections_shape (act := act) (clob := clob) spec b1 (fun p hp => (wf p hp).noop)
        hw b2 ts hts
      exact ⟨s1, s2, s3, s4⟩) ((holds_iff hm (allTrue _)).2 h) hm
    (by rw [hfl]; exact b4) (by rw [hfl]; exact b3)
  rw [hfl] at hh tr
  refine ⟨c, e, ?_, ?_, fun ht => ?_⟩
  · rw [tr, visible_append, b6]
  · rw [hh.1, b5]
  · rw [← b5]
    refine (holds_iff (maskRun_length _ _ _ b4 hm) ?_).1 hh
    exact b7 (by rw [b1.length]; exact Nat.le_refl _) (term_lives ht)

/-- C19, likewise, for an execution that stops inside the block (a failing operation or check): up to
there it performed exactly the EVM's observable events. The section in which it stops has passed its
stack check. -/
theorem C19_prefix_partial (inspect : Bool) (spec : SpecId) (code : Code) (st : AIState)
    (act : Nat → List Word → List Word × Option F) (clob : Nat → Int → Word)
    (l l' : List (Nat × InstData)) (n : Nat) (S : List Word) (cx : SCx (Option F))
    (wf : ∀ p ∈ l, Wf code p) (snap : ∀ p ∈ l.take n, FullSnap st p)
    (hw : (blockAcc l).inputs + (blockAcc l).maxGrowth ≤ 32767)
    (hpure : ∀ p ∈ l, stackOnly p.2.opcode.toNat = true → ∀ args, (act p.1 args).2 = none)
    (he : dseBlock inspect code st l = some l')
    (hok : RunOk ((l.take n).map (toT code st act clob)) S)
    (hchk : ∀ pre ts post, splitSections spec l' = pre ++ ts :: post → pre.flatten.length < n →
      n < pre.flatten.length + ts.length →
      (blockAcc ts).inputs ≤ ((run ((l.take pre.flatten.length).map (toT code st act clob)) S).length : Int))
    (h : Holds cx S) :
    ∃ cx', SCx.runPrefix n ((splitSections spec l').map (List.map (toT code st act clob))) cx = some cx' ∧
      visible cx'.trace = visible (runEvents ((l.take n).map (toT code st act clob)) S) ++ visible cx.trace := by
  have hm : (List.replicate S.length true).length = S.length := by simp
  obtain ⟨b1, b2, b3, b4, b5, b6, _⟩ := block_ok (act := act) (clob := clob) inspect n wf snap hw hpure hok he
  have hfl : ((splitSections spec l').map (List.map (toT code st act clob))).flatten =
      l'.map (toT code st act clob) := by rw [← List.map_flatten, split_flatten]
  obtain ⟨c, e, tr⟩ := prefix_ok n ((splitSections spec l').map (List.map (toT code st act clob)))
    (sections_shape (act := act) (clob := clob) spec b1 (fun p hp => (wf p hp).noop) hw b2)
    (fun pre ts post hs h1 h2 => by
      obtain ⟨pre', rest, hs', rfl, h3⟩ := List.map_eq_append_iff.1 hs
      obtain ⟨ts', post', rfl, rfl, rfl⟩ := List.map_eq_cons_iff.1 h3
      rw [← List.map_flatten, List.length_map] at h1 h2
      rw [List.length_map] at h2
      have hc := hchk pre' ts' post' hs' h1 h2
      rw [acc_fold, ← List.map_flatten]
      refine Int.le_trans hc ?_
      -- the part before this section is a prefix of the block
      have hpre : l'.take pre'.flatten.length = pre'.flatten := by
        rw [← split_flatten spec l', hs', List.flatten_append, List.take_left' rfl]
      have hrun : ((l.take n).take pre'.flatten.length) = l.take pre'.flatten.length := by
        rw [List.take_take, Nat.min_eq_left (by omega)]
      have hok' : RunOk ((l.take pre'.flatten.length).map (toT code st act clob)) S := by
        have := hok
        rw [← List.take_append_drop pre'.flatten.length (l.take n), List.map_append] at this
        rw [← hrun]
        exact ((runOk_append _ _ _).1 this).1
      obtain ⟨_, _, _, _, c5, _, _⟩ := block_ok (act := act) (clob := clob) inspect pre'.flatten.length wf
        (fun p hp => snap p (by rw [← hrun] at hp; exact List.mem_of_mem_take hp)) hw hpure hok' he
      rw [hpre] at c5
      rw [c5]; exact Int.le_refl _)
    ((holds_iff hm (allTrue _)).2 h) hm
    (by rw [hfl, ← List.map_take]; exact b4) (by rw [hfl, ← List.map_take]; exact b3)
  rw [hfl, ← List.map_take] at tr
  exact ⟨c, e, by rw [tr, visible_append, b6]⟩

/-- C48, for blocks whose stack needs fit the types of the section analysis: the pass completes. -/
theorem C48_completes_partial (inspect : Bool) (code : Code) (st : AIState) (l : List (Nat × InstData))
    (wf : ∀ p ∈ l, Wf code p) (hI : (blockAcc l).inputs ≤ 65535) (hM : (blockAcc l).maxGrowth ≤ 32767) :
    ∃ l', dseBlock inspect code st l = some l' :=
  block_some inspect wf hI hM

namespace DseExample

/-- LOG4. -/
def log4 : InstData :=
  { opcode := 0xa4, flags := {}, baseGas := 375, stackIo := (6, 0), data := 0 }

/-- A contract of 10923 LOG4 instructions (eleven kilobytes). -/
def logs : List (Nat × InstData) := (List.range 10923).map fun i => (i, log4)

end DseExample

open DseExample in
theorem logs_wf (code : Code) : ∀ p ∈ logs, Wf code p := by
  intro p hp
  obtain ⟨i, _, rfl⟩ := List.mem_map.1 hp
  refine ⟨rfl, by intro h; simp [log4] at h, fun _ => ?_⟩
  show (6, 0) = computeStackIo 0xa4 _
  unfold computeStackIo
  rw [if_neg (by decide), if_neg (by decide), if_neg (by decide)]
  decide +kernel

open DseExample in
/-- C48 fails: on a contract of 10923 LOG4 instructions the pass panics, whatever the analyses found. -/
theorem C48_completes_fails (inspect : Bool) (code : Code) (st : AIState) :
    (∀ p ∈ logs, Wf code p) ∧ dseBlock inspect code st logs = none := by
  refine ⟨logs_wf code, ?_⟩
  have hd : ∀ p ∈ logs, p.2 = log4 := by
    intro p hp
    obtain ⟨i, _, rfl⟩ := List.mem_map.1 hp
    rfl
  have hlen : logs.length = 10923 := by simp [logs]
  have hacc : blockAcc logs = { inputs := 65538, diff := -65538, maxGrowth := 0 } := by
    unfold blockAcc
    rw [acc_repeat (k := 6) rfl logs hd {} (by decide) (by decide) (by decide), hlen]
    decide
  have hs : ({ inputs := 65538, diff := -65538, maxGrowth := 0 } : StackAcc).section =
      { inputs := 65535, maxGrowth := 0 } := by decide
  unfold dseBlock
  simp only [hacc, hs]
  rw [if_neg]
  · rw [walk_panic logs (by intro h; rw [h] at hlen; simp at hlen) hd]
    · rfl
    · intro i L
      rw [hlen]
      rfl
  · intro h
    rw [List.isEmpty_iff] at h
    have := congrArg List.length h
    simp only [List.length_append, List.length_take, List.length_replicate, List.length_nil] at this
    revert this
    decide

/-! ## Deciding that a run is in order, for concrete blocks -/

/-- `Ok` for the ways of lowering the examples use. -/
def okCheck {E : Type} (t : TInst E) (S : List Word) : Bool :=
  decide (t.inp ≤ S.length) && decide ((pushed t (S.take t.inp)).length = t.out) &&
  ((List.range t.inp).all fun d => (t.constIn d).all fun c => S[d]? == some c) &&
  (t.constOut.all fun c => (pushed t (S.take t.inp)).head? == some c && t.lower != .suspend && t.out == 1) &&
  !t.noop &&
  (match t.lower with
    | .popIgnore | .inline | .builtin => true
    | .nop | .builtinTop => t.inp == 0
    | .dup n => decide (1 ≤ n) && t.inp == n
    | .exchange n m => decide (1 ≤ m) && t.inp == n + m + 1
    | _ => false)

theorem okCheck_ok {E : Type} {t : TInst E} {S : List Word} (h : okCheck t S = true) : Ok t S := by
  simp only [okCheck, Bool.and_eq_true, decide_eq_true_eq, List.all_eq_true, Bool.not_eq_true',
    Option.all_eq_true, beq_iff_eq, bne_iff_ne, List.mem_range] at h
  obtain ⟨⟨⟨⟨⟨h1, h2⟩, h3⟩, h4⟩, h5⟩, h6⟩ := h
  refine ⟨h1, h2, fun d c hd hc => h3 d hd c hc, fun c ho hc => ?_, fun hn => by simp [hn] at h5, ?_⟩
  · obtain ⟨⟨a, b⟩, e⟩ := h4 c hc
    exact ⟨a, b, .inl e⟩
  · revert h6
    cases t.lower <;> simp

def runCheck {E : Type} : List (TInst E) → List Word → Bool
  | [], _ => true
  | t :: ts, S => okCheck t S && runCheck ts (next t S)

theorem runCheck_ok {E : Type} {ts : List (TInst E)} {S : List Word} (h : runCheck ts S = true) : RunOk ts S := by
  induction ts generalizing S with
  | nil => exact trivial
  | cons t ts ih =>
    simp only [runCheck, Bool.and_eq_true] at h
    exact ⟨okCheck_ok h.1, ih h.2⟩

/-- `Wf` for enabled instructions. -/
def wfCheck (code : Code) (p : Nat × InstData) : Bool :=
  !p.2.flags.noop && !(p.2.flags.disabled || p.2.flags.unknown) &&
    p.2.stackIo == computeStackIo p.2.opcode (some [UInt8.ofNat (code.imm p.1).toNat])

theorem wfCheck_ok {code : Code} {p : Nat × InstData} (h : wfCheck code p = true) : Wf code p := by
  simp only [wfCheck, Bool.and_eq_true, Bool.not_eq_true', beq_iff_eq] at h
  exact ⟨h.1.1, fun h' => by rw [h.1.2] at h'; simp at h', fun _ => h.2⟩

namespace DseExample

/-- `CALLER; CALLDATASIZE; SWAP1; POP; PUSH1 7; SSTORE` with one word below. -/
def blk : List (Nat × InstData) :=
  [(0, { opcode := 0x33, stackIo := (0, 1) }), (1, { opcode := 0x36, stackIo := (0, 1) }),
    (2, { opcode := 0x90, stackIo := (2, 2) }), (3, { opcode := 0x50, stackIo := (1, 0) }),
    (4, { opcode := 0x60, stackIo := (0, 1) }), (5, { opcode := 0x55, stackIo := (2, 0) })]

def blkCode : Code := { codeLen := 8, imm := fun i => if i = 4 then 7 else 0, target := fun _ => none }

def blkSt : AIState := (interpBlock blkCode 1000 blk {} []).2

/-- CALLER is 0xca11, CALLDATASIZE is 4, SSTORE's effect is the pair it stores. -/
def blkAct (i : Nat) (args : List Word) : List Word × Option (List Word) :=
  if i = 0 then ([0xca11], none) else if i = 1 then ([4], none) else if i = 4 then ([7], none)
  else if i = 5 then ([], some args) else ([], none)

def blkCx : SCx (Option (List Word)) := { lenVar := 1, mem := fun _ => 9 }

end DseExample

open DseExample in
/-- The pass skips CALLER here (its value is swapped to the top and popped) and PUSH1 (its value is known
where it is used). -/
example : (dseBlock false blkCode blkSt blk).map (List.map fun p => p.2.flags.noop) =
    some [true, false, false, false, true, false] := by decide +kernel

open DseExample in
/-- The hypotheses of `C19_block_partial` hold for it, and its conclusion: the compiled code stores the
call data size (4) at slot 7. -/
example : ∃ l', dseBlock false blkCode blkSt blk = some l' ∧ ∃ cx',
    SCx.runSections ((splitSections SpecId.CANCUN l').map (List.map (toT blkCode blkSt blkAct (fun _ _ => 0)))) blkCx = some cx' ∧
      visible cx'.trace = [.ran (some [7, 4])] ∧ cx'.lenVar = 1 ∧ Holds cx' [9] := by
  obtain ⟨l', he⟩ : ∃ l', dseBlock false blkCode blkSt blk = some l' :=
    C48_completes_partial false blkCode blkSt blk
      (fun p hp => wfCheck_ok ((List.all_eq_true.1 (by decide +kernel : blk.all (wfCheck blkCode) = true)) p hp))
      (by decide +kernel) (by decide +kernel)
  refine ⟨l', he, ?_⟩
  obtain ⟨cx', e, tr, len, hold⟩ := C19_block_partial false SpecId.CANCUN blkCode blkSt blkAct (fun _ _ => 0) blk l' [9] blkCx
    (fun p hp => wfCheck_ok ((List.all_eq_true.1 (by decide +kernel : blk.all (wfCheck blkCode) = true)) p hp))
    (fun p hp => by
      have := (List.all_eq_true.1 (by decide +kernel : (blk.all fun p =>
        (blkSt.inputs p.1).length == p.2.stackIo.1) = true)) p hp
      exact fun _ => .inl (by simpa using this))
    (by decide +kernel)
    (fun p hp ho args => by
      simp only [blk, List.mem_cons, List.not_mem_nil, or_false] at hp
      rcases hp with rfl | rfl | rfl | rfl | rfl | rfl <;> first | rfl | exact absurd ho (by decide))
    he (runCheck_ok (by decide +kernel)) ⟨rfl, fun d w hd => by
      cases d with
      | zero => simpa [blkCx] using hd
      | succ d => simp at hd⟩
  refine ⟨cx', e, ?_, ?_, ?_⟩
  · rw [tr]; decide +kernel
  · rw [len]; decide +kernel
  · refine hold (.inr fun p hp => ?_)
    have : p = (5, { opcode := 0x55, stackIo := (2, 0) }) := by
      simpa [blk] using hp.symm
    subst this
    exact ⟨rfl, rfl, by decide, by decide⟩

open DseExample in
/-- The same block stopped before SSTORE (say, out of gas): nothing observable has happened. -/
example : ∃ l', dseBlock false blkCode blkSt blk = some l' ∧ ∃ cx',
    SCx.runPrefix 5 ((splitSections SpecId.CANCUN l').map (List.map (toT blkCode blkSt blkAct (fun _ _ => 0)))) blkCx =
      some cx' ∧ visible cx'.trace = [] := by
  have he : dseBlock false blkCode blkSt blk = some ((dseBlock false blkCode blkSt blk).getD []) := by decide +kernel
  refine ⟨_, he, ?_⟩
  obtain ⟨cx', e, tr⟩ := C19_prefix_partial false SpecId.CANCUN blkCode blkSt blkAct (fun _ _ => 0) blk
    ((dseBlock false blkCode blkSt blk).getD []) 5 [9] blkCx
    (fun p hp => wfCheck_ok ((List.all_eq_true.1 (by decide +kernel : blk.all (wfCheck blkCode) = true)) p hp))
    (fun p hp => by
      have := (List.all_eq_true.1 (by decide +kernel : (blk.all fun p =>
        (blkSt.inputs p.1).length == p.2.stackIo.1) = true)) p (List.mem_of_mem_take hp)
      exact fun _ => .inl (by simpa using this))
    (by decide +kernel)
    (fun p hp ho args => by
      simp only [blk, List.mem_cons, List.not_mem_nil, or_false] at hp
      rcases hp with rfl | rfl | rfl | rfl | rfl | rfl <;> first | rfl | exact absurd ho (by decide))
    he (runCheck_ok (by decide +kernel))
    (fun pre ts post hs h1 h2 => by
      rw [show splitSections SpecId.CANCUN ((dseBlock false blkCode blkSt blk).getD []) =
        [(dseBlock false blkCode blkSt blk).getD []] from by decide +kernel] at hs
      cases pre with
      | nil =>
        obtain ⟨rfl, rfl⟩ := (List.cons.inj hs)
        decide +kernel
      | cons a pre => simp at hs)
    ⟨rfl, fun d w hd => by
      cases d with
      | zero => simpa [blkCx] using hd
      | succ d => simp at hd⟩
  exact ⟨cx', e, by rw [tr]; decide +kernel⟩

namespace DseFail

/-- `SWAPN 64; POP × 63; ADD`. -/
def blk : List (Nat × InstData) :=
  (0, { opcode := 0xe7, stackIo := (65, 65) }) ::
    ((List.range 63).map fun k => (k + 1, { opcode := 0x50, stackIo := (1, 0) })) ++
    [(64, { opcode := 0x01, stackIo := (2, 1) })]

/-- The immediate 0xAF is depth 64. -/
def code : Code := { codeLen := 67, imm := fun i => if i = 0 then 0xaf else 0, target := fun _ => none }

/-- The stack at entry, top first: 1, 2, …, 66. -/
def entry : List Word := (List.range 66).map fun k => BitVec.ofNat 256 (k + 1)

/-- What the analysis tracks of it: the top 64 words. -/
def abs : List AbsValue := (entry.map AbsValue.const).take MAX_ABS_STACK_DEPTH

def st : AIState := (interpBlock code 1000 blk {} abs).2

def act (i : Nat) (args : List Word) : List Word × Option Unit :=
  if i = 64 then ([args.headD 0 + args.tail.headD 0], none) else ([], none)

def cx : SCx (Option Unit) := { lenVar := 66, mem := fun a => BitVec.ofInt 256 (66 - a) }

end DseFail

open DseFail in
/-- C19 fails for blocks entered with more than 64 words: the analysis is right about everything it
tracks, but as it does not track the second operand of ADD, the pass takes the first one's value for the
second's, and skips SWAPN. The EVM leaves 65, 66; the compiled code leaves 129, 66. -/
theorem C19_block_fails :
    (BlockState.bottom.join (entry.map AbsValue.const)).1 = .known abs ∧
    (∀ p ∈ blk, Wf code p) ∧ (blockAcc blk).inputs + (blockAcc blk).maxGrowth ≤ 32767 ∧
    (∀ p ∈ blk, ∀ args, (act p.1 args).2 = none) ∧
    RunOk (blk.map (toT code st act (fun _ _ => 0))) entry ∧ Holds cx entry ∧
    (∀ p, blk.getLast? = some p → staysInCall p.2) ∧
    run (blk.map (toT code st act (fun _ _ => 0))) entry = [65, 66] ∧
    (dseBlock false code st blk).isSome ∧
    (∀ l' ∈ dseBlock false code st blk, ∀ cx' ∈
      SCx.runSections ((splitSections SpecId.AMSTERDAM l').map (List.map (toT code st act (fun _ _ => 0)))) cx,
      cx'.lenVar = 2 ∧ cx'.mem 1 = 129 ∧ ¬ Holds cx' [65, 66]) := by
  refine ⟨rfl, ?_, by decide +kernel, ?_, runCheck_ok (by decide +kernel), ?_, ?_, by decide +kernel,
    by decide +kernel, ?_⟩
  · exact fun p hp => wfCheck_ok ((List.all_eq_true.1 (by decide +kernel : blk.all (wfCheck code) = true)) p hp)
  · intro p _ args
    unfold act
    split <;> rfl
  · refine ⟨rfl, fun d w hd => ?_⟩
    have hl : entry.length = 66 := by decide
    have hall : (List.range 66).all (fun d => entry[d]? == some (cx.mem ((entry.length : Int) - 1 - d))) = true := by
      decide +kernel
    obtain ⟨h1, _⟩ := List.getElem?_eq_some_iff.1 hd
    have := List.all_eq_true.1 hall d (by rw [List.mem_range]; omega)
    simp only [beq_iff_eq] at this
    rw [hd] at this
    exact (Option.some.inj this).symm
  · intro p hp
    have : p = (64, { opcode := 0x01, stackIo := (2, 1) }) := by
      unfold blk at hp
      rw [List.getLast?_append] at hp
      simpa using hp.symm
    subst this
    exact ⟨rfl, rfl, by decide, by decide⟩
  · intro l' hl' cx' hcx'
    have hb : ((dseBlock false code st blk).all fun l' =>
        (SCx.runSections ((splitSections SpecId.AMSTERDAM l').map (List.map (toT code st act (fun _ _ => 0)))) cx).all fun cx' =>
          cx'.lenVar == 2 && cx'.mem 1 == 129) = true := by decide +kernel
    have h1 := (Option.all_eq_true _ _).1 hb l' hl'
    have h2 := (Option.all_eq_true _ _).1 h1 cx' hcx'
    simp only [Bool.and_eq_true, beq_iff_eq] at h2
    refine ⟨h2.1, h2.2, fun hh => ?_⟩
    have := hh.2 0 65 rfl
    rw [show (([65, 66] : List Word).length : Int) - 1 - (0 : Nat) = 1 from rfl, h2.2] at this
    revert this
    decide

/-! ## The operands the analysis records -/

/-- Part of C19 (and of C14): when a block is interpreted from an abstract stack with at least the words
the block needs, the operands of all its instructions are recorded in full, whatever was recorded
before. -/
theorem C19_operands_complete (code : Code) (limit : Nat) (l : List (Nat × InstData)) (st : AIState)
    (entry : List AbsValue) (wf : ∀ p ∈ l, Wf code p) (live : ∀ p ∈ l, p.2.flags.deadCode = false)
    (nd : (l.map Prod.fst).Nodup)
    (en : ∀ p ∈ l.dropLast, (p.2.flags.disabled || p.2.flags.unknown) = false ∧ Decodable code p)
    (hM : (blockAcc l).inputs + (blockAcc l).maxGrowth ≤ 98302)
    (hentry : (blockAcc l).inputs ≤ entry.length) :
    ∀ p ∈ l, FullSnap (interpBlock code limit l st entry).2 p := by
  have hwin : Window l {} (blockAcc l).inputs (blockAcc l).maxGrowth := ⟨Int.le_refl _, Int.le_refl _⟩
  have hm := window_mono l {}
  obtain ⟨hh, _⟩ := heights_of hwin (by have := hm.1; simp only at this; simp only [blockAcc] at *; omega)
    (by have := hm.2; simp only at this; simp only [blockAcc] at *; omega) hM
  rw [show ({} : StackAcc).diff = 0 from rfl, Int.add_zero] at hh
  have := interpBlock_full (limit := limit) l (st := st) (s := entry) wf live nd en hh (by omega)
  intro p hp
  exact fun h0 => .inl (this.1 p hp h0)

/-- C49, for code without undecodable immediates inside blocks (missing: those, see `C49_known_fails`).
After a block was interpreted locally, every PUSH in it has its value recorded, and keeps it through any
further interpretation of any blocks. -/
theorem C49_known_partial (code : Code) (limit : Nat) (l : List (Nat × InstData)) (st : AIState)
    (hist : List (List (Nat × InstData) × List AbsValue))
    (wf : ∀ p ∈ l, Wf code p) (live : ∀ p ∈ l, p.2.flags.deadCode = false)
    (nd : (l.map Prod.fst).Nodup)
    (en : ∀ p ∈ l.dropLast, (p.2.flags.disabled || p.2.flags.unknown) = false ∧ Decodable code p)
    (hI : (blockAcc l).inputs ≤ 65535) (hM : (blockAcc l).inputs + (blockAcc l).maxGrowth ≤ 98302)
    (hsame : ∀ h ∈ hist, ∀ q ∈ h.1, ∀ p ∈ l, q.1 = p.1 → q.2.opcode = p.2.opcode)
    (p : Nat × InstData) (hp : p ∈ l) (hpush : 0x5f ≤ p.2.opcode.toNat ∧ p.2.opcode.toNat ≤ 0x7f)
    (hoff : (p.2.flags.disabled || p.2.flags.unknown) = false) :
    (runs code limit hist (interpBlock code limit l st (List.replicate (sectionInputs l) .top)).2).constOutput p.1 =
      some (code.imm p.1) := by
  have hwin : Window l {} (blockAcc l).inputs (blockAcc l).maxGrowth := ⟨Int.le_refl _, Int.le_refl _⟩
  have hm := window_mono l {}
  have hpos : 0 ≤ (blockAcc l).inputs := hm.1
  obtain ⟨hh, _⟩ := heights_of hwin (by simp only; omega)
    (by have := hm.2; simp only at this; simp only [blockAcc] at *; omega) hM
  rw [show ({} : StackAcc).diff = 0 from rfl, Int.add_zero] at hh
  have hsec : sectionInputs l = (blockAcc l).inputs.toNat := by
    unfold sectionInputs StackAcc.section
    exact if_pos ⟨hpos, hI⟩
  have h0 := (interpBlock_full (limit := limit) l (st := st) (s := List.replicate (sectionInputs l) .top)
    wf live nd en hh (by rw [List.length_replicate, hsec]; omega)).2 p hp hpush.1 hpush.2 hoff
  generalize (interpBlock code limit l st (List.replicate (sectionInputs l) .top)).2 = st1 at h0
  have : (runs code limit hist st1).outputs p.1 = some (.const (code.imm p.1)) := by
    clear hM hI en live nd wf hwin hm
    unfold runs
    induction hist generalizing st1 with
    | nil => exact h0
    | cons h hist ih =>
      rw [List.foldl_cons]
      refine ih (fun h' hh' => hsame h' (List.mem_cons_of_mem _ hh')) _ ?_
      refine interpBlock_keep (fun q hq e => ?_) h0
      rw [hsame h (by simp) q hq p hp e]
      exact hpush
  unfold AIState.constOutput
  rw [this]; rfl

open DseExample in
/-- In the example block the pushed value stays known, whatever is interpreted afterwards. -/
example (hist : List (List (Nat × InstData) × List AbsValue))
    (h : ∀ h ∈ hist, ∀ q ∈ h.1, ∀ p ∈ blk, q.1 = p.1 → q.2.opcode = p.2.opcode) :
    (runs blkCode 1000 hist (interpBlock blkCode 1000 blk {} (List.replicate (sectionInputs blk) .top)).2).constOutput 4 =
      some 7 :=
  C49_known_partial blkCode 1000 blk {} hist
    (fun p hp => wfCheck_ok ((List.all_eq_true.1 (by decide +kernel : blk.all (wfCheck blkCode) = true)) p hp))
    (fun p hp => by
      have := List.all_eq_true.1 (by decide +kernel : (blk.all fun p => !p.2.flags.deadCode) = true) p hp
      simpa using this)
    (by decide)
    (fun p hp => by
      have hp' : p ∈ blk := List.dropLast_sublist _ |>.mem hp
      have := List.all_eq_true.1 (by decide +kernel : (blk.all fun p => !(p.2.flags.disabled || p.2.flags.unknown) &&
        ![op.DUPN, op.SWAPN, op.EXCHANGE].contains p.2.opcode) = true) p hp'
      simp only [Bool.and_eq_true, Bool.not_eq_true', List.contains_eq_mem, List.mem_cons, List.not_mem_nil, or_false,
        decide_eq_false_iff_not, not_or] at this
      obtain ⟨a, b, c, d⟩ := this
      exact ⟨a, fun h => by rcases h with h | h <;> contradiction, fun h => absurd h d⟩)
    (by decide +kernel) (by decide +kernel) h (4, { opcode := 0x60, stackIo := (0, 1) }) (by simp [blk])
    (by decide) rfl

namespace PushFail

/-- `DUPN 0x60; PUSH0`: DUPN's immediate is not a valid encoding. -/
def prog : Prog :=
  { insts := [{ opcode := 0xe6 }, { opcode := 0x5f, stackIo := (0, 1) }, { opcode := 0x00 }] }

def code : Code := { codeLen := 3, imm := fun i => if i = 0 then 0x60 else 0, target := fun _ => none }

end PushFail

open PushFail in
/-- C49 fails after an instruction with an undecodable immediate: the analyses keep the following PUSH0
alive but do not record its value, so code generation panics. -/
theorem C49_known_fails :
    (parse (fun _ => 3) SpecId.AMSTERDAM [0xe6, 0x60, 0x5f]).insts.map (fun d => (d.2.opcode, d.2.stackIo, d.2.flags)) =
      prog.insts.map (fun d => (d.opcode, d.stackIo, d.flags)) ∧
    ((analyzeFlow code 1000 prog).1.insts[1]?.map fun d => (d.opcode, d.flags.deadCode)) = some (0x5f, false) ∧
    (analyzeFlow code 1000 prog).2.constOutput 1 = none := by
  refine ⟨by decide +kernel, by decide +kernel, by decide +kernel⟩

end Verif
