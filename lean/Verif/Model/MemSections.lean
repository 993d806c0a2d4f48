import Verif.Model.Flow
import Verif.Model.MemJump
/-!
# Memory sections

Models `crates/revmc-codegen/src/bytecode/passes/memory_sections.rs`, `const_memory_accesses`
(`bytecode/mod.rs`) and their use by `build_ensure_memory`, `can_skip_ensure_memory`, `build_memory_addr`
and `call_builtin` (`compiler/translate/mod.rs`). Sizes are natural numbers; `u64` operations saturate
where the code says so.
-/

namespace Verif

/-- `u64::saturating_add`. -/
def satAdd (a b : Nat) : Nat := min (a + b) (2 ^ 64 - 1)

/-- `const_memory_accesses` (bytecode/mod.rs:701-739): the known offset and length of each access. -/
def constMemAccesses (st : AIState) (i : Nat) (d : InstData) : List (Option Nat × Option Nat) :=
  if d.flags.disabled || d.flags.unknown then []
  else
    let operand (k : Nat) : Option Nat :=
      (st.constOperand i k).bind fun w => if w.toNat < 2 ^ 64 then some w.toNat else none
    let o := d.opcode
    if o == op.KECCAK256 || o == op.RETURN || o == op.REVERT || o == op.LOG0 then [(operand 0, operand 1)]
    else if o == op.MLOAD || o == op.MSTORE then [(operand 0, some 32)]
    else if o == op.MSTORE8 then [(operand 0, some 1)]
    else if o == op.CALLDATACOPY || o == op.CODECOPY || o == op.RETURNDATACOPY then [(operand 0, operand 2)]
    else if o == op.EXTCODECOPY then [(operand 1, operand 3)]
    else if o == op.MCOPY then
      [((operand 0).bind fun dst => (operand 1).map fun src => max dst src, operand 2)]
    else if o == op.LOG1 then [(operand 1, operand 2)]
    else if o == op.LOG2 then [(operand 2, operand 3)]
    else if o == op.LOG3 then [(operand 3, operand 4)]
    else if o == op.LOG4 then [(operand 4, operand 5)]
    else if o == op.CREATE || o == op.CREATE2 then [(operand 1, operand 2)]
    else if o == op.CALL || o == op.CALLCODE then [(operand 3, operand 4), (operand 5, operand 6)]
    else if o == op.DELEGATECALL || o == op.STATICCALL then [(operand 2, operand 3), (operand 4, operand 5)]
    else []

/-- `round_memory_size` (memory_sections.rs:319-321). -/
def roundMem (n : Nat) : Nat := satAdd n 31 / 32 * 32

/-- `exact_memory_size_for_access` (memory_sections.rs:302-308). -/
def exactMem (a : Option Nat × Option Nat) : Option Nat :=
  if a.2 = some 0 then some 0
  else a.1.bind fun o => a.2.map fun l => roundMem (satAdd o l)

/-- `min_memory_size_for_access` (memory_sections.rs:310-316). -/
def minMem (a : Option Nat × Option Nat) : Nat :=
  match a.2 with
  | none => 0
  | some l =>
    if l = 0 then 0
    else match a.1 with
      | some o => roundMem (satAdd o l)
      | none => roundMem l

/-- `exact.zip(access).map(max)` (memory_sections.rs:178-180, 231-234, 275-279). -/
def zipMax (x y : Option Nat) : Option Nat := x.bind fun x => y.map fun y => max x y

/-- `BlockMemoryState` (memory_sections.rs:97-106). -/
structure MemState where
  known : Option Nat := none
  exact : Option Nat := none
deriving DecidableEq, Repr

/-- `join_state` (memory_sections.rs:286-299). -/
def MemState.join (s inc : MemState) : MemState :=
  match inc.known, s.known with
  | none, _ => s
  | _, none => inc
  | some p, some e =>
    { known := some (min e p)
      exact := match s.exact, inc.exact with
        | some x, some y => if x = y then some x else none
        | _, _ => none }

/-- What the pass reads of a block: its instructions, successors, and membership in
`dynamic_jump_blocks` and `dynamic_jump_targets` (memory_sections.rs:130-149). -/
structure MBlock where
  insts : List (Nat × InstData)
  succs : List Nat
  dynJump : Bool := false
  dynTarget : Bool := false

/-- `MemorySectionAnalysis::new` (memory_sections.rs:130-159) on the blocks of a program. -/
def Prog.memBlocks (p : Prog) : List MBlock :=
  p.blocks.map fun b =>
    { insts := p.blockInsts b
      succs := p.succs p.blocks b
      dynJump := p.hasDyn && (p.insts[b.2 - 1]?).any fun d =>
        d.isJump && !d.isStaticJump && !d.flags.invalidJump
      dynTarget := p.hasDyn && (p.insts[b.1]?).any fun d => d.isReachableJumpdest true }

/-- All accesses of a block in order. -/
def MBlock.accesses (st : AIState) (b : MBlock) : List (Option Nat × Option Nat) :=
  b.insts.flatMap fun p => constMemAccesses st p.1 p.2

/-- `compute_block_memory_summaries` (memory_sections.rs:169-186) for one block: the minimum and the exact
required size. -/
def MBlock.summary (st : AIState) (b : MBlock) : Nat × Option Nat :=
  (b.accesses st).foldl (fun s a => (max s.1 (minMem a), zipMax s.2 (exactMem a))) (0, some 0)

/-- `block_exit_state` (memory_sections.rs:227-236). -/
def MBlock.exit (st : AIState) (b : MBlock) (s : MemState) : MemState :=
  { known := s.known.map fun k => max k (b.summary st).1
    exact := zipMax s.exact (b.summary st).2 }

/-- The mutable state of `compute_block_entry_states` (memory_sections.rs:188-214). -/
structure MemFix where
  states : List MemState
  dyn : MemState := {}
  work : List Nat

/-- `update_entry_state` (memory_sections.rs:216-225). -/
def MemFix.update (f : MemFix) (b : Nat) (inc : MemState) : MemFix :=
  let s := (f.states[b]?).getD {}
  let j := s.join inc
  if j = s then f else { f with states := f.states.set b j, work := pushWork f.work b }

/-- One iteration of the worklist loop (memory_sections.rs:199-213) for the popped block. -/
def memStep (st : AIState) (bs : List MBlock) (b : Nat) (f : MemFix) : MemFix :=
  match bs[b]? with
  | none => f
  | some blk =>
    let e := blk.exit st ((f.states[b]?).getD {})
    if e.known.isNone then f
    else
      let f := blk.succs.foldl (fun f s => f.update s e) f
      if blk.dynJump then
        let d := f.dyn.join e
        if d = f.dyn then f
        else
          ((List.range bs.length).filter fun t => (bs[t]?).any (·.dynTarget)).foldl
            (fun f t => f.update t d) { f with dyn := d }
      else f

/-- The worklist loop; `none` if the fuel does not suffice. -/
def memLoop (st : AIState) (bs : List MBlock) : Nat → MemFix → Option MemFix
  | fuel, f =>
    match f.work with
    | [] => some f
    | b :: w =>
      match fuel with
      | 0 => none
      | fuel + 1 => memLoop st bs fuel (memStep st bs b { f with work := w })

/-- The initial state (memory_sections.rs:189-197). -/
def memInit (bs : List MBlock) : MemFix :=
  { states := (List.replicate bs.length {}).set 0 { known := some 0, exact := some 0 }, work := [0] }

/-- `compute_block_entry_states` (memory_sections.rs:188-214). -/
def memStates (st : AIState) (bs : List MBlock) (fuel : Nat) : Option (List MemState) :=
  (memLoop st bs fuel (memInit bs)).map (·.states)

/-- `MemorySection` (memory_sections.rs:8-21). -/
structure MemSection where
  known : Nat := 0
  required : Nat := 0
  direct : Nat := 0
deriving DecidableEq, Repr

/-- The body of the innermost loop of `save_sections` (memory_sections.rs:246-279): the section of the
current instruction, and the running sizes. -/
def saveAccess (r : MemSection × MemState) (a : Option Nat × Option Nat) : MemSection × MemState :=
  let known := r.2.known.getD 0
  let ex := exactMem a
  let sec :=
    if known ≠ 0 ∨ ex.any (· ≠ 0) then
      let sec := if r.1.known = 0 ∧ r.1.required = 0 then { r.1 with known } else r.1
      match ex with
      | none => sec
      | some e =>
        { sec with
          required := max sec.required e
          direct := if r.2.exact.any (· < e) then max sec.direct e else sec.direct }
    else r.1
  (sec, { known := some (max known (minMem a)), exact := zipMax r.2.exact ex })

/-- `save_sections` (memory_sections.rs:238-283) for the instructions of a block from state `s` on. -/
def saveInsts (st : AIState) : List (Nat × InstData) → MemState → List (Nat × MemSection)
  | [], _ => []
  | p :: rest, s =>
    let r := (constMemAccesses st p.1 p.2).foldl saveAccess ({}, s)
    (p.1, r.1) :: saveInsts st rest r.2

/-- `save_sections` for a block with its entry state: nothing is recorded for unreached blocks. -/
def saveBlock (st : AIState) (b : MBlock) (s : MemState) : List (Nat × MemSection) :=
  if s.known.isNone then b.insts.map fun p => (p.1, {}) else saveInsts st b.insts s

/-- `can_skip_ensure_memory` (translate/mod.rs:1724-1737). -/
def canSkipMem (sec : MemSection) (accs : List (Option Nat × Option Nat)) : Bool :=
  decide (sec.required ≤ sec.known) && !accs.isEmpty && accs.all fun a => a.1.isSome && a.2.isSome

/-- `build_ensure_memory` (translate/mod.rs:1686-1722) with the results of the analysis. -/
def ensureMemSec (skip : Bool) (direct : Nat) (offset : Word) (len memLen : BitVec 64) : MemCheck :=
  let off := satU64 offset 63
  if skip then .fast off
  else if direct ≠ 0 then .resize (off + len) off
  else ensureMem offset len memLen

end Verif
