import Verif.Lemmas.MemFix
import Verif.Model.Program
import Verif.Props.MemJump
/-!
# C22: skipped and merged memory-expansion checks never miss an expansion

The theorems are about any blocks, any recorded constants and any execution along the edges whose
operands agree with the recorded constants (that recorded constants are right is C14 and C15).
-/

namespace Verif
open Spec

/-- Everything the theorems assume: blocks with existing successors, the computed states, an execution that
has reached instruction `p` of block `b` with memory size `m` and operands `args`. No LOG1..LOG4 in the
program has a last topic that is a known 64-bit constant. -/
structure MemAt (st : AIState) (bs : List MBlock) (fuel : Nat) (sec : MemSection) (p : Nat × InstData)
    (args : List Word) (m : Nat) : Prop where
  succs : ∀ blk ∈ bs, ∀ s ∈ blk.succs, s < bs.length
  logs : ∀ blk ∈ bs, ∀ q ∈ blk.insts, NoSmallTopic st q
  here : ∃ states b blk pre post m0, memStates st bs fuel = some states ∧ MemPath st bs b m0 ∧
    bs[b]? = some blk ∧ blk.insts = pre ++ p :: post ∧ RunsAll st pre m0 m ∧
    (saveBlock st blk ((states[b]?).getD {}))[pre.length]? = some (p.1, sec)
  runs : Runs st p args

/-- The state before the instruction is right. -/
theorem MemAt.state {st : AIState} {bs : List MBlock} {fuel : Nat} {sec : MemSection} {p : Nat × InstData}
    {args : List Word} {m : Nat} (h : MemAt st bs fuel sec p args m) :
    ∃ s rs, Cov s m ∧ sec = ((constMemAccesses st p.1 p.2).foldl saveAccess ({}, s)).1 ∧
      DescAll (constMemAccesses st p.1 p.2) rs ∧
      growAll m (memRanges p.2.opcode.toNat args) = growAll m rs := by
  obtain ⟨states, b, blk, pre, post, m0, hst, hp, hb, hi, hr, hsec⟩ := h.here
  have hne : bs ≠ [] := fun e => by rw [e] at hb; simp at hb
  obtain ⟨f, hf, rfl⟩ := Option.map_eq_some_iff.1 hst
  have hcov := path_cov (memLoop_inv h.succs fuel _ f (memInit_inv hne) hf) h.logs hp
  have hmem := List.mem_of_getElem? hb
  have hall := h.logs blk hmem
  have hcov' : Cov (stateAfter st pre (f.get b)) m := cov_runs hr (fun q hq => hall q (by rw [hi]; simp [hq])) hcov
  obtain ⟨rs, hd, hg⟩ := accesses_desc h.runs (hall p (by rw [hi]; simp))
  refine ⟨_, rs, hcov', ?_, hd, hg m⟩
  obtain ⟨⟨k, hk, _⟩, _⟩ := hcov
  have hk' : ((f.states[b]?).getD {}).known = some k := hk
  unfold saveBlock at hsec
  rw [hk', hi] at hsec
  simp only [Option.isNone_some, Bool.false_eq_true, if_false] at hsec
  rw [saveInsts_at] at hsec
  exact (congrArg Prod.snd (Option.some.inj hsec)).symm

/-- C22, without LOG1..LOG4 with a known small last topic (see `C22_fails`): wherever the compiler skips the
memory-expansion check, the interpreter would not expand the memory either. -/
theorem C22_skip_partial (st : AIState) (bs : List MBlock) (fuel : Nat) (sec : MemSection) (p : Nat × InstData)
    (args : List Word) (m : Nat) (h : MemAt st bs fuel sec p args m)
    (hskip : canSkipMem sec (constMemAccesses st p.1 p.2) = true) :
    growAll m (memRanges p.2.opcode.toNat args) = m := by
  obtain ⟨s, rs, hc, rfl, hd, hg⟩ := h.state
  rw [hg]
  exact skip_sound hd hc hskip

theorem ite_len {α : Type} (c : Prop) [Decidable c] {x y : List α} (hx : x.length ≤ 1) (hy : y.length ≤ 1) :
    (if c then x else y).length ≤ 1 := by split <;> assumption

/-- The memory size recorded as guaranteed before an instruction is at most the actual one, if the instruction
accesses one range (the CALL family accesses two; there a size after the first access may be
recorded, which the skip test ignores). -/
theorem C22_known_partial (st : AIState) (bs : List MBlock) (fuel : Nat) (sec : MemSection) (p : Nat × InstData)
    (args : List Word) (m : Nat) (h : MemAt st bs fuel sec p args m)
    (hop : p.2.opcode.toNat ∉ [0xf1, 0xf2, 0xf4, 0xfa]) : sec.known ≤ m := by
  obtain ⟨s, rs, ⟨⟨k, hk, hkm⟩, _⟩, rfl, _, _⟩ := h.state
  have hlen : (constMemAccesses st p.1 p.2).length ≤ 1 := by
    have ht := op_table p.2.opcode
    simp only [List.mem_cons, List.not_mem_nil, or_false, not_or] at hop
    have e1 : (p.2.opcode == op.CALL || p.2.opcode == op.CALLCODE) = false := by
      rw [ht.2.2.2.2.2.2.2.2.2.2.2.2.2.2.2.2.2.2.1, ht.2.2.2.2.2.2.2.2.2.2.2.2.2.2.2.2.2.2.2.1]
      simp [hop.1, hop.2.1]
    have e2 : (p.2.opcode == op.DELEGATECALL || p.2.opcode == op.STATICCALL) = false := by
      rw [ht.2.2.2.2.2.2.2.2.2.2.2.2.2.2.2.2.2.2.2.2.1, ht.2.2.2.2.2.2.2.2.2.2.2.2.2.2.2.2.2.2.2.2.2]
      simp [hop.2.2.1, hop.2.2.2]
    unfold constMemAccesses
    simp only [e1, e2, Bool.false_eq_true, if_false]
    repeat' apply ite_len
    all_goals simp
  cases hl : constMemAccesses st p.1 p.2 with
  | nil => exact Nat.zero_le _
  | cons a as =>
    have : as = [] := by
      rw [hl] at hlen
      exact List.length_eq_zero_iff.1 (by simp only [List.length_cons] at hlen; omega)
    subst this
    show (saveAccess ({}, s) a).1.known ≤ m
    unfold saveAccess
    simp only [hk, Option.getD_some, and_self, if_true]
    split
    · split <;> exact hkm
    · exact Nat.zero_le _

/-- The instruction's own check: MLOAD, MSTORE and MSTORE8 with their access lengths. -/
def checkLen (o : UInt8) : Option (BitVec 64) :=
  if o.toNat = 0x51 ∨ o.toNat = 0x52 then some 32 else if o.toNat = 0x53 then some 1 else none

/-- The memory size after the check. -/
def MemCheck.after (m : Nat) : MemCheck → Nat
  | .fast _ => m
  | .resize n _ => mresizeLen m n.toNat

/-- The offset the access uses. -/
def MemCheck.addr : MemCheck → BitVec 64
  | .fast a => a
  | .resize _ a => a

/-- Memory sizes are whole words. -/
theorem grow_words {m : Nat} (h : m % 32 = 0) (r : Nat × Nat) : grow m r % 32 = 0 := by
  unfold grow; split <;> omega

theorem growAll_words {m : Nat} (h : m % 32 = 0) (rs : List (Nat × Nat)) : growAll m rs % 32 = 0 := by
  unfold growAll
  induction rs generalizing m with
  | nil => exact h
  | cons r rs ih => exact ih (grow_words h r)

theorem runs_words {st : AIState} {l : List (Nat × InstData)} {m m' : Nat} (h : RunsAll st l m m') :
    m % 32 = 0 → m' % 32 = 0 := by
  induction h with
  | nil => exact id
  | cons _ _ ih => intro h; exact ih (growAll_words h _)

theorem path_words {st : AIState} {bs : List MBlock} {b m : Nat} (h : MemPath st bs b m) : m % 32 = 0 := by
  induction h with
  | start => rfl
  | edge _ _ hr _ ih => exact runs_words hr ih

/-- C22, for MLOAD, MSTORE and MSTORE8 and without LOG1..LOG4 with a known small last topic (see `C22_fails`):
whichever check the analysis selects (none, a direct resize, the general one), afterwards the memory has
exactly the size the interpreter's has, the access uses the operand as offset, and it is within
memory. -/
theorem C22_ensure_partial (st : AIState) (bs : List MBlock) (fuel : Nat) (sec : MemSection) (p : Nat × InstData)
    (args : List Word) (memLen len : BitVec 64) (h : MemAt st bs fuel sec p args memLen.toNat)
    (hlen : checkLen p.2.opcode = some len) :
    ∃ c, c = ensureMemSec (canSkipMem sec (constMemAccesses st p.1 p.2)) sec.direct (args.headD 0) len memLen ∧
      c.after memLen.toNat = growAll memLen.toNat (memRanges p.2.opcode.toNat args) ∧
      c.addr.toNat = (args.headD 0).toNat ∧ c.addr.toNat + len.toNat ≤ c.after memLen.toNat := by
  -- the range
  have hhead : (args[0]?.getD 0) = args.headD 0 := by cases args <;> rfl
  have hr : memRanges p.2.opcode.toNat args = [((args.headD 0).toNat, len.toNat)] ∧ 0 < len.toNat ∧ len.toNat ≤ 32 := by
    unfold checkLen at hlen
    unfold memRanges
    simp only [hhead]
    split at hlen
    · rename_i ho
      have := Option.some.inj hlen
      subst this
      rw [if_neg (by omega), if_neg (by omega), if_neg (by omega), if_pos ho]
      exact ⟨rfl, by decide, by decide⟩
    · split at hlen
      · rename_i ho
        have := Option.some.inj hlen
        subst this
        rw [if_neg (by omega), if_neg (by omega), if_neg (by omega), if_neg (by omega), if_pos ho]
        exact ⟨rfl, by decide, by decide⟩
      · simp at hlen
  obtain ⟨hr, hpos, h32⟩ := hr
  have hsmall := h.runs.small ((args.headD 0).toNat, len.toNat) (by rw [hr]; simp) (by simp only; omega)
  simp only at hsmall
  generalize args.headD 0 = off at *
  have hsat := satU64_63 off
  have hoff : (satU64 off 63).toNat = off.toNat := by omega
  have hadd : (satU64 off 63 + len).toNat = off.toNat + len.toNat := by
    rw [BitVec.toNat_add]; omega
  have hwords : memLen.toNat % 32 = 0 := by
    obtain ⟨_, _, _, _, _, _, _, hp, _, _, hru, _⟩ := h.here
    exact runs_words hru (path_words hp)
  have hgrow : growAll memLen.toNat [(off.toNat, len.toNat)] =
      max memLen.toNat (32 * ((off.toNat + len.toNat + 31) / 32)) := by
    show grow _ _ = _
    unfold grow
    rw [if_neg (by simp only; omega)]
  have hskip := C22_skip_partial st bs fuel sec p args memLen.toNat h
  rw [hr, hgrow] at hskip
  rw [hr, hgrow]
  generalize e1 : ensureMemSec (canSkipMem sec (constMemAccesses st p.1 p.2)) sec.direct off len memLen = c
  replace e1 := e1.symm
  refine ⟨c, rfl, ?_⟩
  unfold ensureMemSec at e1
  cases hs : canSkipMem sec (constMemAccesses st p.1 p.2) with
  | true =>
    rw [hs] at e1
    simp only [if_true] at e1
    have := hskip hs
    rw [e1]
    simp only [MemCheck.after, MemCheck.addr, hoff]
    have h2 := Nat.le_max_right memLen.toNat (32 * ((off.toNat + len.toNat + 31) / 32))
    rw [this] at h2
    exact ⟨this.symm, trivial, by omega⟩
  | false =>
    rw [hs] at e1
    simp only [Bool.false_eq_true, if_false] at e1
    split at e1
    · rw [e1]
      simp only [MemCheck.after, MemCheck.addr, hoff, hadd, mresizeLen, numWords, and_true, true_and]
      omega
    · unfold ensureMem at e1
      simp only [BitVec.lt_def, hadd] at e1
      split at e1
      · rw [e1]
        simp only [MemCheck.after, MemCheck.addr, hoff, hadd, mresizeLen, numWords, and_true, true_and]
        omega
      · rw [e1]
        simp only [MemCheck.after, MemCheck.addr, hoff, true_and]
        omega

/-- A direct resize is selected for MLOAD, MSTORE and MSTORE8 only where the interpreter would expand the memory,
and the recorded size is the size the interpreter expands it to. -/
theorem C22_direct_partial (st : AIState) (bs : List MBlock) (fuel : Nat) (sec : MemSection) (p : Nat × InstData)
    (args : List Word) (m : Nat) (h : MemAt st bs fuel sec p args m) (hop : (checkLen p.2.opcode).isSome)
    (hdir : sec.direct ≠ 0) :
    sec.direct = growAll m (memRanges p.2.opcode.toNat args) ∧
      m < growAll m (memRanges p.2.opcode.toNat args) := by
  obtain ⟨s, rs, hc, rfl, hd, hg⟩ := h.state
  rw [hg]
  have h1 : ∃ a, constMemAccesses st p.1 p.2 = [a] := by
    have ht := op_table p.2.opcode
    have ho : p.2.opcode.toNat = 0x51 ∨ p.2.opcode.toNat = 0x52 ∨ p.2.opcode.toNat = 0x53 := by
      unfold checkLen at hop
      split at hop
      · omega
      · split at hop
        · omega
        · simp at hop
    unfold constMemAccesses
    rw [h.runs.on]
    obtain ⟨t1, t2, t3, t4, t5, t6, t7, _⟩ := ht
    dsimp only
    rw [t1, t2, t3, t4, t5, t6, t7, if_neg (by simp), if_neg (by simp; omega)]
    by_cases h3 : p.2.opcode.toNat = 0x53
    · rw [if_neg (by simp; omega), if_pos (by simpa using h3)]
      exact ⟨_, rfl⟩
    · rw [if_pos (by simp; omega)]
      exact ⟨_, rfl⟩
  obtain ⟨a, ha⟩ := h1
  rw [ha] at hd hdir ⊢
  cases hd with
  | cons d1 d2 d3 =>
    cases d3
    exact direct_sound d1 d2 hc hdir

/-- The analysis ends: the worklist empties after finitely many steps, for any blocks. -/
theorem C22_terminates (st : AIState) (bs : List MBlock) (hs : ∀ blk ∈ bs, ∀ s ∈ blk.succs, s < bs.length) :
    ∃ fuel states, memStates st bs fuel = some states ∧ states.length = bs.length := by
  have hK : ∀ blk ∈ bs, (blk.summary st).1 ≤ (bs.map fun b => (b.summary st).1).sum := by
    clear hs
    induction bs with
    | nil => simp
    | cons b bs ih =>
      intro blk hb
      rw [List.map_cons, List.sum_cons]
      rcases List.mem_cons.1 hb with rfl | hb
      · omega
      · have := ih blk hb; omega
  generalize (bs.map fun b => (b.summary st).1).sum = K at hK
  have hl : (memInit bs).states.length = bs.length := by simp [memInit]
  have hb : ∀ s ∈ (memInit bs).states, Bnd K s := by
    intro s hs k hk
    unfold memInit at hs
    rcases List.mem_or_eq_of_mem_set hs with h | rfl
    · rw [(List.mem_replicate.1 h).2] at hk; simp at hk
    · simp at hk; omega
  have hd : Bnd K (memInit bs).dyn := by intro k hk; simp [memInit] at hk
  have := memLoop_total (st := st) hs hK _ (memInit bs) (Nat.le_refl _) hl hb hd
  obtain ⟨f, hf⟩ := Option.isSome_iff_exists.1 this
  refine ⟨_, f.states, by unfold memStates; rw [hf]; rfl, ?_⟩
  by_cases hne : bs = []
  · subst hne
    have : memLoop st [] ((memInit []).measure K) (memInit []) = some { (memInit []) with work := [] } := by
      unfold memLoop
      have : (memInit []).measure K = 1 := by simp [MemFix.measure, memInit]
      rw [this]
      simp [memInit, memStep, memLoop]
    rw [this] at hf
    rw [← Option.some.inj hf]
    simp [memInit]
  · exact (memLoop_inv hs _ _ f (memInit_inv hne) hf).len

/-! ## Examples -/

namespace MemExample

def gas (_ : UInt8) : BitVec 16 := 3

/-- Evaluates the analysis: the sections of all instructions with a section. -/
def sectionsOf (bytes : List UInt8) : Option (List (Nat × MemSection)) :=
  let r := analyzeBytes gas SpecId.CANCUN 1000 bytes
  (memStates r.2 r.1.memBlocks 100).map fun states =>
    ((List.range r.1.memBlocks.length).flatMap fun b =>
      ((r.1.memBlocks[b]?).map fun blk => saveBlock r.2 blk ((states[b]?).getD {})).getD []).filter fun p => p.2 != {}

/-- A store, then a loop with two loads. -/
def loop : List UInt8 :=
  [0x60, 1, 0x60, 0, 0x52,        -- PUSH1 1; PUSH1 0; MSTORE
   0x5b,                          -- JUMPDEST
   0x60, 0, 0x51, 0x50,           -- PUSH1 0; MLOAD; POP
   0x60, 0x20, 0x51, 0x50,        -- PUSH1 32; MLOAD; POP
   0x36, 0x60, 5, 0x57, 0x00]     -- CALLDATASIZE; PUSH1 5; JUMPI; STOP

/-- The store resizes directly to one word; in the loop, the first load is covered on every path, the
second is not (it is on the way back only). -/
example : sectionsOf loop = some [(2, { known := 0, required := 32, direct := 32 }),
    (5, { known := 32, required := 32 }), (8, { known := 32, required := 64 })] := by decide +kernel

/-- `PUSH2 0x1000; PUSH0; PUSH0; LOG1; PUSH1 1; PUSH2 0x0800; MSTORE; STOP` -/
def log1 : List UInt8 := [0x61, 0x10, 0x00, 0x5f, 0x5f, 0xa1, 0x60, 1, 0x61, 0x08, 0x00, 0x52, 0x00]

def log1St : AIState := (analyzeBytes gas SpecId.CANCUN 1000 log1).2

def log1Blocks : List MBlock := (analyzeBytes gas SpecId.CANCUN 1000 log1).1.memBlocks

def log1Insts : List (Nat × InstData) := log1Blocks.flatMap (·.insts)

/-- The operands of its instructions, in order. -/
def log1Args : List (List Word) := [[], [], [], [0, 0, 0x1000], [], [], [0x0800, 1]]

/-- `RunsAll` for given operands. -/
def runCheck (st : AIState) : List ((Nat × InstData) × List Word) → Bool
  | [] => true
  | (p, args) :: l =>
    !(p.2.flags.disabled || p.2.flags.unknown) &&
      ((List.range 8).all fun k => (st.constOperand p.1 k).all fun c => args[k]? == some c) &&
      decide ((st.inputs p.1).length ≤ 8) &&
      ((memRanges p.2.opcode.toNat args).all fun r => decide (r.2 = 0) || decide (r.1 + r.2 < 2 ^ 63)) && runCheck st l

theorem constOperand_range {st : AIState} {i k : Nat} (h : (st.inputs i).length ≤ k) : st.constOperand i k = none := by
  unfold AIState.constOperand
  rw [List.getElem?_eq_none (by simpa using h)]
  rfl

theorem runCheck_ok {st : AIState} {l : List ((Nat × InstData) × List Word)} (h : runCheck st l = true) :
    (∀ x ∈ l, Runs st x.1 x.2) ∧ ∀ m, RunsAll st (l.map Prod.fst) m
      (l.foldl (fun m x => growAll m (memRanges x.1.2.opcode.toNat x.2)) m) := by
  induction l with
  | nil => exact ⟨by simp, fun m => .nil m⟩
  | cons x l ih =>
    obtain ⟨p, args⟩ := x
    simp only [runCheck, Bool.and_eq_true, Bool.not_eq_true', List.all_eq_true, Option.all_eq_true, beq_iff_eq,
      decide_eq_true_eq, Bool.or_eq_true, List.mem_range] at h
    obtain ⟨⟨⟨⟨h1, h2⟩, h3⟩, h4⟩, h5⟩ := h
    have hr : Runs st p args := by
      refine ⟨by simpa using h1, fun k c hc => ?_, fun r hr hne => ?_⟩
      · by_cases hk : k < 8
        · exact h2 k hk c hc
        · rw [constOperand_range (by omega)] at hc; simp at hc
      · rcases h4 r hr with h | h
        · exact absurd h hne
        · exact h
    obtain ⟨i1, i2⟩ := ih h5
    refine ⟨fun x hx => ?_, fun m => ?_⟩
    · rcases List.mem_cons.1 hx with rfl | hx
      · exact hr
      · exact i1 x hx
    · rw [List.map_cons, List.foldl_cons]
      exact .cons hr (i2 _)

def loopSt : AIState := (analyzeBytes gas SpecId.CANCUN 1000 loop).2

def loopBlocks : List MBlock := (analyzeBytes gas SpecId.CANCUN 1000 loop).1.memBlocks

/-- The operands of the instructions of the first two blocks. -/
def loopArgs : List (List (List Word)) :=
  [[[], [], [0, 1]], [[], [], [0], [1], [], [0x20], [0], [], [], [5, 4]]]

/-- Instructions `k..` of block `b` with their operands. -/
def loopRun (b n : Nat) : List ((Nat × InstData) × List Word) :=
  (((loopBlocks[b]?).map fun blk => blk.insts.zip ((loopArgs[b]?).getD [])).getD []).take n

/-- The block's instructions are those with operands, from a memory of size `m` to `m'`. -/
theorem loop_edge {b m m' s : Nat} (h : MemPath loopSt loopBlocks b m)
    (hc : runCheck loopSt (loopRun b 100) = true) (hi : (loopBlocks[b]?).map (·.insts) = some ((loopRun b 100).map Prod.fst))
    (hs : (loopBlocks[b]?).any fun blk => blk.succs.contains s)
    (hm : (loopRun b 100).foldl (fun m x => growAll m (memRanges x.1.2.opcode.toNat x.2)) m = m') :
    MemPath loopSt loopBlocks s m' := by
  obtain ⟨blk, hb, hi⟩ := Option.map_eq_some_iff.1 hi
  have := (runCheck_ok hc).2 m
  rw [← hi, hm] at this
  rw [hb] at hs
  exact .edge h hb this (.inl (by simpa using hs))

/-- The second time round the loop, with 64 bytes of memory. -/
theorem loop_path : MemPath loopSt loopBlocks 1 64 := by
  have h0 : MemPath loopSt loopBlocks 0 0 := .start
  have h1 : MemPath loopSt loopBlocks 1 32 :=
    loop_edge h0 (by decide +kernel) (by decide +kernel) (by decide +kernel) (by decide +kernel)
  exact loop_edge h1 (by decide +kernel) (by decide +kernel) (by decide +kernel) (by decide +kernel)

/-- Reaching instruction `n` of block `b`. -/
theorem loop_at {b n m m' : Nat} {sec : MemSection} {args : List Word} (h : MemPath loopSt loopBlocks b m)
    (hc : runCheck loopSt (loopRun b (n + 1)) = true)
    (hi : (loopBlocks[b]?).map (fun blk => blk.insts.take (n + 1)) = some ((loopRun b (n + 1)).map Prod.fst))
    (hp : ((loopRun b (n + 1))[n]?).map Prod.snd = some args)
    (hm : (loopRun b n).foldl (fun m x => growAll m (memRanges x.1.2.opcode.toNat x.2)) m = m')
    (hsec : (memStates loopSt loopBlocks 100).any fun states => (loopBlocks[b]?).any fun blk =>
      (saveBlock loopSt blk ((states[b]?).getD {}))[n]? == ((loopRun b (n + 1))[n]?).map fun x => (x.1.1, sec)) :
    ∃ p, ((loopRun b (n + 1))[n]?).map Prod.fst = some p ∧ MemAt loopSt loopBlocks 100 sec p args m' := by
  obtain ⟨x, hx, rfl⟩ := Option.map_eq_some_iff.1 hp
  obtain ⟨blk, hb, hi⟩ := Option.map_eq_some_iff.1 hi
  have hrun := runCheck_ok hc
  have hn : n < (loopRun b (n + 1)).length := (List.getElem?_eq_some_iff.1 hx).1
  have hle : (loopRun b (n + 1)).length ≤ n + 1 := by unfold loopRun; simp; omega
  have htake : loopRun b n = (loopRun b (n + 1)).take n := by
    unfold loopRun; rw [List.take_take]; congr 1; omega
  have hsplit : loopRun b (n + 1) = loopRun b n ++ [x] := by
    rw [htake]
    conv => lhs; rw [← List.take_append_drop n (loopRun b (n + 1))]
    congr 1
    rw [List.drop_eq_getElem_cons hn, List.drop_eq_nil_of_le (by omega), (List.getElem?_eq_some_iff.1 hx).2]
  have hpre : runCheck loopSt (loopRun b n) = true := by
    have : ∀ (l r : List ((Nat × InstData) × List Word)), runCheck loopSt (l ++ r) = true → runCheck loopSt l = true := by
      intro l r h
      induction l with
      | nil => rfl
      | cons y l ih =>
        simp only [List.cons_append, runCheck, Bool.and_eq_true] at h ⊢
        exact ⟨h.1, ih h.2⟩
    exact this _ [x] (hsplit ▸ hc)
  refine ⟨x.1, by rw [hx]; rfl, ?_, ?_, ?_, hrun.1 x (List.mem_of_getElem? hx)⟩
  · intro blk hb s hs
    have := List.all_eq_true.1 (by decide +kernel : (loopBlocks.all fun blk => blk.succs.all fun s =>
      decide (s < loopBlocks.length)) = true) blk hb
    simpa using List.all_eq_true.1 this s hs
  · intro blk hb q hq n h1 h2 h3
    have := List.all_eq_true.1 (by decide +kernel : (loopBlocks.all fun blk => blk.insts.all fun q =>
      decide (q.2.opcode.toNat < 0xa0)) = true) blk hb
    have := List.all_eq_true.1 this q hq
    simp only [decide_eq_true_eq] at this
    omega
  · cases hst : memStates loopSt loopBlocks 100 with
    | none => rw [hst] at hsec; simp at hsec
    | some states =>
    rw [hst, Option.any_some] at hsec
    rw [hb, Option.any_some, hx] at hsec
    simp only [Option.map_some, beq_iff_eq] at hsec
    have hr := (runCheck_ok hpre).2 m
    rw [hm] at hr
    have hlen : ((loopRun b n).map Prod.fst).length = n := by
      rw [List.length_map, htake, List.length_take]; omega
    refine ⟨states, b, blk, (loopRun b n).map Prod.fst, blk.insts.drop (n + 1), m, rfl, h, hb, ?_, hr, by rw [hlen]; exact hsec⟩
    conv => lhs; rw [← List.take_append_drop (n + 1) blk.insts, hi, hsplit]
    simp

/-- The hypotheses of the theorems hold at the first load of the loop, the second time round: no check is
made, and none is needed. -/
example : ∃ p, ((loopRun 1 3)[2]?).map Prod.fst = some p ∧
    canSkipMem { known := 32, required := 32 } (constMemAccesses loopSt p.1 p.2) = true ∧
    growAll 64 (memRanges p.2.opcode.toNat [0]) = 64 := by
  obtain ⟨p, hp, h⟩ := loop_at (n := 2) (sec := { known := 32, required := 32 }) (args := [0]) (m' := 64) loop_path
    (by decide +kernel) (by decide +kernel) (by decide +kernel) (by decide +kernel) (by decide +kernel)
  have hs : (((loopRun 1 3)[2]?).map Prod.fst).all (fun p =>
    canSkipMem { known := 32, required := 32 } (constMemAccesses loopSt p.1 p.2)) = true := by decide +kernel
  rw [hp] at hs
  exact ⟨p, hp, by simpa using hs, C22_skip_partial _ _ _ _ _ _ _ h (by simpa using hs)⟩

/-- At the second load, the first time round, the general check is made, and expands the memory from one word to
two. -/
example : ∃ p, ((loopRun 1 6)[5]?).map Prod.fst = some p ∧
    (ensureMemSec (canSkipMem { known := 32, required := 64 } (constMemAccesses loopSt p.1 p.2)) 0 0x20 32 32).after 32 =
      growAll 32 (memRanges p.2.opcode.toNat [0x20]) := by
  obtain ⟨p, hp, h⟩ := loop_at (b := 1) (m := 32) (n := 5) (sec := { known := 32, required := 64 }) (args := [0x20]) (m' := 32)
    (loop_edge (b := 0) .start (by decide +kernel) (by decide +kernel) (by decide +kernel) (by decide +kernel))
    (by decide +kernel) (by decide +kernel) (by decide +kernel) (by decide +kernel) (by decide +kernel)
  have hs : (((loopRun 1 6)[5]?).map Prod.fst).all (fun p => checkLen p.2.opcode == some 32) = true := by decide +kernel
  rw [hp] at hs
  obtain ⟨c, rfl, h1, _⟩ := C22_ensure_partial _ _ _ _ _ _ 32 32 h (by simpa using hs)
  exact ⟨p, hp, h1⟩

/-- At the store, the direct resize goes to one word. -/
example : ∃ p, ((loopRun 0 3)[2]?).map Prod.fst = some p ∧ 32 = growAll 0 (memRanges p.2.opcode.toNat [0, 1]) := by
  obtain ⟨p, hp, h⟩ := loop_at (b := 0) (m := 0) (n := 2) (sec := { required := 32, direct := 32 }) (args := [0, 1]) (m' := 0)
    .start (by decide +kernel) (by decide +kernel) (by decide +kernel) (by decide +kernel) (by decide +kernel)
  have hs : (((loopRun 0 3)[2]?).map Prod.fst).all (fun p => (checkLen p.2.opcode).isSome) = true := by decide +kernel
  rw [hp] at hs
  exact ⟨p, hp, (C22_direct_partial _ _ _ _ _ _ _ h (by simpa using hs) (by decide)).1⟩

end MemExample

open MemExample in
/-- C22 fails for LOG1..LOG4: for them the analysis takes other operands for offset and length. Here LOG1 with an
empty range and topic 0x1000 counts as an access of 0x1000 bytes, so the check of the following store
at 0x0800 is skipped though the memory is empty: the store writes out of bounds. -/
theorem C22_fails : ∃ sec p, log1Blocks.map (·.insts) = [log1Insts] ∧ log1Insts[6]? = some p ∧
    p.2.opcode = op.MSTORE ∧
    memStates log1St log1Blocks 10 = some [{ known := some 0, exact := some 0 }] ∧
    (log1Blocks.map fun b => (saveBlock log1St b { known := some 0, exact := some 0 })[6]?) = [some (p.1, sec)] ∧
    MemPath log1St log1Blocks 0 0 ∧ RunsAll log1St (log1Insts.take 6) 0 0 ∧ Runs log1St p [0x0800, 1] ∧
    ensureMemSec (canSkipMem sec (constMemAccesses log1St p.1 p.2)) sec.direct 0x0800 32 0 = .fast 0x0800 ∧
    growAll 0 (memRanges p.2.opcode.toNat [0x0800, 1]) = 0x0820 := by
  obtain ⟨p, hp⟩ : ∃ p, log1Insts[6]? = some p := Option.isSome_iff_exists.1 (by decide +kernel)
  have h1 : (log1Insts[6]?).all (fun p => p.2.opcode == op.MSTORE && runCheck log1St [(p, [0x0800, 1])] &&
      decide ((log1Blocks.map fun b => (saveBlock log1St b { known := some 0, exact := some 0 })[6]?) =
        [some (p.1, { known := 0x1000, required := 0x0820 })]) &&
      decide (ensureMemSec (canSkipMem { known := 0x1000, required := 0x0820 } (constMemAccesses log1St p.1 p.2)) 0
        0x0800 32 0 = .fast 0x0800)) = true := by decide +kernel
  have hall := (runCheck_ok (st := log1St) (l := (log1Insts.take 6).zip log1Args) (by decide +kernel)).2 0
  rw [hp] at h1
  simp only [Option.all_some, Bool.and_eq_true, decide_eq_true_eq, beq_iff_eq] at h1
  obtain ⟨⟨⟨ho, hr⟩, hs⟩, he⟩ := h1
  refine ⟨_, p, by decide +kernel, hp, ho, by decide +kernel, hs, .start, ?_, (runCheck_ok hr).1 (p, _) (by simp), he, ?_⟩
  · rw [show ((log1Insts.take 6).zip log1Args).map Prod.fst = log1Insts.take 6 by decide +kernel] at hall
    rw [show ((log1Insts.take 6).zip log1Args).foldl (fun m x => growAll m (memRanges x.1.2.opcode.toNat x.2)) 0 = 0 by
      decide +kernel] at hall
    exact hall
  · rw [ho]; decide

end Verif
