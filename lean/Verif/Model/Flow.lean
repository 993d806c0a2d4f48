import Verif.Model.AbsInt
import Verif.Model.Sections
/-!
# Control flow: dead code, blocks, jump resolution

Models the control-flow part of `Bytecode::analyze` (`bytecode/mod.rs`:421-433) up to, but not
including, block deduplication: `refresh_cfg`, `block_analysis_local`, `block_analysis`
(`passes/block_analysis.rs`). Before deduplication the redirect map is empty, so following redirects
is the identity here (redirects are modelled in `Model/Dedup.lean`).
-/

namespace Verif

/-- The mutable control-flow fields of `Bytecode` (mod.rs:161-216): instructions,
`multi_jump_targets` and `has_dynamic_jumps`. -/
structure Prog where
  insts : List InstData
  multi : List (Nat × List Nat) := []
  hasDyn : Bool := false
deriving DecidableEq, Repr

/-! ## Reachability and dead code -/

/-- `recompute_has_dynamic_jumps` (mod.rs:464-473). -/
def Prog.recomputeHasDyn (p : Prog) : Prog :=
  { p with hasDyn := p.insts.any fun d => d.isJump && !d.flags.staticJump && !d.flags.deadCode }

/-- The targets collected by `recompute_reachable_jumpdests` from one instruction (mod.rs:486-500). -/
def Prog.targetsOf (p : Prog) (i : Nat) (d : InstData) : List Nat :=
  if !d.isStaticJump || d.flags.invalidJump || d.flags.deadCode then []
  else if d.flags.multiJump then (p.multi.lookup i).getD []
  else [d.staticJumpTarget]

/-- The targets collected by `recompute_reachable_jumpdests` from instruction `i` on. -/
def Prog.collect (p : Prog) : Nat → List InstData → List Nat
  | _, [] => []
  | i, d :: ds => p.targetsOf i d ++ Prog.collect p (i + 1) ds

/-- `recompute_reachable_jumpdests` (mod.rs:477-511). -/
def Prog.recomputeReachable (p : Prog) : Prog :=
  let ts := p.collect 0 p.insts
  { p with insts := p.insts.mapIdx fun i d =>
      if d.isJumpdest then { d with reachable := ts.contains i } else d }

/-- Both nested loops of `mark_dead_code_once` (mod.rs:532-565), which share one iterator, as one
recursion. `kill` is `some t` while inside the inner loop with `static_target = t`; the instruction
that ends the inner loop is consumed without being examined by the outer loop. -/
def markLoop (dyn : Bool) : Nat → Option (Option Nat) → List InstData → List InstData
  | _, _, [] => []
  | i, none, d :: ds =>
    if !d.canFallThrough then
      let st := if d.isStaticJump && decide (i < d.staticJumpTarget) then some d.staticJumpTarget
        else none
      if st = some (i + 1) then d :: markLoop dyn (i + 1) none ds
      else d :: markLoop dyn (i + 1) (some st) ds
    else d :: markLoop dyn (i + 1) none ds
  | i, some st, d :: ds =>
    if st = some i ∨ d.isReachableJumpdest dyn then d :: markLoop dyn (i + 1) none ds
    else { d with flags := { d.flags with deadCode := true } } :: markLoop dyn (i + 1) (some st) ds

/-- The return value of `mark_dead_code_once`: whether a jump was newly marked (mod.rs:555-558). -/
def markedJump : List InstData → List InstData → Bool
  | d :: ds, d' :: ds' => (!d.flags.deadCode && d'.flags.deadCode && d.isJump) || markedJump ds ds'
  | _, _ => false

/-- `mark_dead_code` (mod.rs:521-530). The Rust `loop` marks at least one more jump in every round
but the last, so `fuel = number of instructions + 1` rounds suffice (`markDead_shut`). -/
def markDead : Nat → Prog → Prog
  | 0, p => p
  | fuel + 1, p =>
    let p' := { p with insts := markLoop p.hasDyn 0 none p.insts }
    if markedJump p.insts p'.insts then markDead fuel p'.recomputeHasDyn.recomputeReachable
    else p'

/-- `refresh_cfg` without the CFG (block_analysis.rs:547-553). -/
def Prog.refresh (p : Prog) : Prog :=
  let p := p.recomputeHasDyn.recomputeReachable
  markDead (p.insts.length + 1) p

/-! ## Blocks -/

/-- `is_leader` (block_analysis.rs:602-622). -/
def Prog.isLeader (p : Prog) (i : Nat) : Bool :=
  i == 0 || (p.insts[i]?).any (·.isReachableJumpdest p.hasDyn) ||
    (decide (0 < i) && (p.insts[i - 1]?).any fun d =>
      !d.flags.deadCode && (d.isBranching || d.isDiverging))

/-- The block-building loop (block_analysis.rs:627-656): ranges of instructions. -/
def buildLoop (lead : Nat → Bool) : List InstData → Nat → Option Nat → Nat → Bool → List (Nat × Nat)
  | [], _, cur, e, _ => match cur with
    | none => []
    | some s => [(s, e)]
  | d :: ds, i, cur, e, pending =>
    if d.flags.deadCode then buildLoop lead ds (i + 1) cur e (pending || lead i)
    else if lead i || pending || cur.isNone then
      match cur with
      | some s => (s, e) :: buildLoop lead ds (i + 1) (some i) (i + 1) false
      | none => buildLoop lead ds (i + 1) (some i) (i + 1) false
    else buildLoop lead ds (i + 1) cur (i + 1) false

/-- The blocks of `rebuild_cfg` (block_analysis.rs:577-656). The `assert_ne` on the number of blocks
holds because instruction 0 is never dead (`blocks_ne_nil`). -/
def Prog.blocks (p : Prog) : List (Nat × Nat) := buildLoop p.isLeader p.insts 0 none 0 false

/-- `inst_to_block` (block_analysis.rs:579-590). -/
def instToBlock (bs : List (Nat × Nat)) (i : Nat) : Option Nat :=
  bs.findIdx? fun b => decide (b.1 ≤ i) && decide (i < b.2)

/-- Adds a successor unless present (block_analysis.rs:675-690). -/
def addSucc (acc : List Nat) (b : Nat) : List Nat := if acc.contains b then acc else acc ++ [b]

/-- The successor edges of a block (block_analysis.rs:658-690). -/
def Prog.succs (p : Prog) (bs : List (Nat × Nat)) (b : Nat × Nat) : List Nat :=
  match p.insts[b.2 - 1]? with
  | none => []
  | some d =>
    let fall := if d.canFallThrough then (instToBlock bs (b.2 - 1 + 1)).toList else []
    let ts :=
      if d.flags.multiJump ∧ (p.multi.lookup (b.2 - 1)).isSome then
        (p.multi.lookup (b.2 - 1)).getD []
      else if d.isStaticJump && !d.flags.invalidJump then [d.staticJumpTarget] else []
    (ts.filterMap (instToBlock bs)).foldl addSucc fall

/-- The numbered instructions of a range. -/
def Prog.slice (p : Prog) (s n : Nat) : List (Nat × InstData) :=
  (List.range' s n).filterMap fun i => (p.insts[i]?).map fun d => (i, d)

/-- The instructions of a block (`BlockData::insts`, block_analysis.rs:285-289). -/
def Prog.blockInsts (p : Prog) (b : Nat × Nat) : List (Nat × InstData) := p.slice b.1 (b.2 - b.1)

/-! ## Jump resolution -/

/-- `JumpTarget` (block_analysis.rs:301-310). -/
inductive JumpTarget
  | bottom
  | resolved (ts : List Nat)
  | invalid
  | top
deriving DecidableEq, Repr

/-- `JumpCondition` (block_analysis.rs:312-318). -/
inductive JumpCond
  | unknown
  | alwaysTrue
  | alwaysFalse
deriving DecidableEq, Repr

/-- `JumpResolution` (block_analysis.rs:293-297). -/
structure JumpRes where
  target : JumpTarget
  cond : JumpCond := .unknown
deriving DecidableEq, Repr

/-- `JumpResolution::is_resolved` (block_analysis.rs:364-366). -/
def JumpRes.isResolved (r : JumpRes) : Bool :=
  match r.target with
  | .resolved _ | .invalid => true
  | _ => false

/-- `resolve_jump_condition` (block_analysis.rs:830-854). -/
def resolveCond (v : AbsValue) : JumpCond :=
  match v.constList with
  | none => .unknown
  | some l =>
    let sawZero := l.any (· == 0#256)
    let sawNonzero := l.any (· != 0#256)
    if sawZero && !sawNonzero then .alwaysFalse
    else if !sawZero && sawNonzero then .alwaysTrue
    else .unknown

/-- `resolve_jump_operand` (block_analysis.rs:788-828). -/
def resolveOperand (code : Code) (v : AbsValue) : JumpTarget :=
  match v with
  | .const w => match code.target w with
    | some t => .resolved [t]
    | none => .invalid
  | .constSet s =>
    match s.mapM code.target with
    | none => .top
    | some [] => .invalid
    | some ts => .resolved ts
  | .top => .top

/-- `resolve_jump` (block_analysis.rs:759-785). -/
def resolveJump (code : Code) (st : AIState) (i : Nat) (d : InstData) : JumpRes :=
  let snap := st.inputs i
  let cond := if d.opcode == op.JUMPI then
      match snap.head? with
      | some v => resolveCond v
      | none => .unknown
    else .unknown
  if cond = .alwaysFalse then { target := .resolved [i + 1], cond := .alwaysFalse }
  else match snap.getLast? with
    | some v => { target := resolveOperand code v, cond := cond }
    | none => { target := .bottom }

/-- `HashMap::insert`. -/
def multiInsert (m : List (Nat × List Nat)) (i : Nat) (ts : List Nat) : List (Nat × List Nat) :=
  (i, ts) :: m.filter (·.1 != i)

/-- `HashMap::remove`. -/
def multiRemove (m : List (Nat × List Nat)) (i : Nat) : List (Nat × List Nat) := m.filter (·.1 != i)

/-- Modifies instruction `i`. -/
def Prog.modify (p : Prog) (i : Nat) (f : InstData → InstData) : Prog :=
  { p with insts := p.insts.modify i f }

/-- One iteration of the loop of `commit_resolved_jumps` (block_analysis.rs:470-538). Setting the
reachable bits of the targets is left out: `recompute_reachable_jumpdests` clears and recomputes
them right after the loop (block_analysis.rs:541). -/
def Prog.commitOne (p : Prog) (hasTop : Bool) (i : Nat) (r : JumpRes) : Prog :=
  let wasStatic := (p.insts[i]?).any (·.flags.staticJump)
  if wasStatic && r.cond == .unknown then p
  else
    let p := if r.cond != .unknown then
        p.modify i fun d => { d with flags := { d.flags with constJumpCond := true } }
      else p
    match r.target with
    | .resolved ts =>
      match ts with
      | [t] =>
        { (p.modify i fun d => { d with
            flags := { d.flags with invalidJump := false, multiJump := false, staticJump := true },
            data := t }) with multi := multiRemove p.multi i }
      | ts =>
        { (p.modify i fun d => { d with
            flags := { d.flags with invalidJump := false, staticJump := true, multiJump := true } })
          with multi := multiInsert p.multi i ts }
    | .invalid =>
      { (p.modify i fun d => { d with
          flags := { d.flags with staticJump := true, invalidJump := true, multiJump := false } })
        with multi := multiRemove p.multi i }
    | .bottom =>
      if !hasTop then
        { (p.modify i fun d => { d with
            flags := { d.flags with staticJump := true, invalidJump := true, multiJump := false } })
          with multi := multiRemove p.multi i }
      else p
    | .top => p

/-- `commit_resolved_jumps` (block_analysis.rs:466-543). -/
def Prog.commit (p : Prog) (res : List (Nat × JumpRes)) : Prog :=
  let hasTop := res.any fun r => r.2.target == .top
  (res.foldl (fun p r => p.commitOne hasTop r.1 r.2) p).recomputeReachable

/-! ## Local analysis -/

/-- `StackSection::from_stack_io(..).inputs` (sections.rs:47-60). -/
def sectionInputs (l : List (Nat × InstData)) : Nat :=
  (l.foldl (fun a p => a.process p.2.stackIo.1 p.2.stackIo.2) ({} : StackAcc)).section.inputs

/-- The loop body of `block_analysis_local` for one block (block_analysis.rs:397-436). -/
def localBlock (code : Code) (limit : Nat) (p : Prog) (b : Nat × Nat)
    (acc : AIState × List (Nat × JumpRes)) : AIState × List (Nat × JumpRes) :=
  let l := p.blockInsts b
  let r := interpBlock code limit l acc.1 (List.replicate (sectionInputs l) .top)
  match r.1 with
  | none => (r.2, acc.2)
  | some _ =>
    match p.insts[b.2 - 1]? with
    | none => (r.2, acc.2)
    | some d =>
      if !d.isJump || d.flags.staticJump then (r.2, acc.2)
      else
        let res := resolveJump code r.2 (b.2 - 1) d
        match res.target with
        | .resolved [_] => (r.2, acc.2 ++ [(b.2 - 1, res)])
        | _ => (r.2, acc.2)

/-- `block_analysis_local` (block_analysis.rs:388-441). -/
def blockAnalysisLocal (code : Code) (limit : Nat) (p : Prog) (st : AIState) : Prog × AIState :=
  let r := p.blocks.foldl (fun acc b => localBlock code limit p b acc) (st, [])
  ((p.commit r.2).recomputeHasDyn, r.1)

/-! ## Global analysis -/

/-- The working state of `run_fixpoint` (block_analysis.rs:980-1003). `disc_preds` is write-only and
left out. -/
structure FixState where
  states : List BlockState
  disc : List (List Nat)
  ai : AIState
  work : List Nat

/-- `Worklist::push` (block_analysis.rs:250-256). -/
def pushWork (w : List Nat) (b : Nat) : List Nat := if w.contains b then w else w ++ [b]

/-- `discover_jump_edges` (block_analysis.rs:873-903): the new discovered list of the block. -/
def discover (code : Code) (bs : List (Nat × Nat)) (v : AbsValue) (disc : List Nat) : List Nat :=
  match v.constList with
  | none => disc
  | some l => (l.filterMap fun w => (code.target w).bind (instToBlock bs)).foldl addSucc disc

/-- Propagation to one successor (block_analysis.rs:1040-1044). -/
def propagate (out : List AbsValue) (acc : List BlockState × List Nat) (succ : Nat) :
    List BlockState × List Nat :=
  match acc.1[succ]? with
  | none => acc
  | some s =>
    let j := s.join out
    (acc.1.set succ j.1, if j.2 then pushWork acc.2 succ else acc.2)

/-- One iteration of the worklist loop (block_analysis.rs:1005-1045) for the popped block. -/
def fixStep (code : Code) (limit : Nat) (p : Prog) (bs : List (Nat × Nat)) (b : Nat) (f : FixState) :
    FixState :=
  match f.states[b]?, bs[b]? with
  | some (.known a), some blk =>
    let r := interpBlock code limit (p.blockInsts blk) f.ai a
    match r.1 with
    | none => { f with ai := r.2 }
    | some out =>
      let db := (f.disc[b]?).getD []
      let db' := match p.insts[blk.2 - 1]? with
        | some d =>
          if d.isJump && !d.flags.staticJump then
            match (r.2.inputs (blk.2 - 1)).getLast? with
            | some v => discover code bs v db
            | none => db
          else db
        | none => db
      let q := (p.succs bs blk ++ db').foldl (propagate out) (f.states, f.work)
      { states := q.1, disc := f.disc.set b db', ai := r.2, work := q.2 }
  | _, _ => f

/-- The worklist loop with its iteration limit (block_analysis.rs:1005-1010): the final state and
whether it converged. -/
def fixLoop (code : Code) (limit : Nat) (p : Prog) (bs : List (Nat × Nat)) :
    Nat → FixState → FixState × Bool
  | fuel, f =>
    match f.work with
    | [] => (f, true)
    | b :: w =>
      match fuel with
      | 0 => (f, false)
      | fuel + 1 => fixLoop code limit p bs fuel (fixStep code limit p bs b { f with work := w })

/-- `run_fixpoint` with the initial states of `run_abstract_interp` (block_analysis.rs:703-708,
980-1053). -/
def runFixpoint (code : Code) (limit : Nat) (p : Prog) (bs : List (Nat × Nat)) (ai : AIState) :
    FixState × Bool :=
  fixLoop code limit p bs (bs.length * 8)
    { states := (List.replicate bs.length BlockState.bottom).set 0 (.known [])
      disc := List.replicate bs.length []
      ai := ai
      work := [0] }

/-- `local_jumpi_condition` (block_analysis.rs:856-871). -/
def localCond (loc : AIState) (i : Nat) (d : InstData) : JumpCond :=
  if d.opcode != op.JUMPI then .unknown
  else match (loc.inputs i).head? with
    | some (.const w) => if w == 0#256 then .alwaysFalse else .alwaysTrue
    | _ => .unknown

/-- The propagation loop of `invalidate_suspect_jumps` (block_analysis.rs:937-948). Every block enters
the worklist at most once, so `fuel = number of blocks` iterations suffice (`suspectLoop_closed`). -/
def suspectLoop (succ : Nat → List Nat) : Nat → List Nat → List Nat → List Nat
  | 0, _, sus => sus
  | _, [], sus => sus
  | fuel + 1, b :: w, sus =>
    let new := ((succ b).filter fun s => !sus.contains s).eraseDups
    suspectLoop succ fuel (w ++ new) (sus ++ new)

/-- The suspect blocks (block_analysis.rs:922-948). -/
def suspects (p : Prog) (bs : List (Nat × Nat)) (f : FixState) : List Nat :=
  let seed := (List.range bs.length).filter fun b =>
    (match f.states[b]? with
      | some (.known _) => true
      | _ => false) &&
    ((bs[b]?).bind fun blk => p.insts[blk.1]?).any (·.isJumpdest)
  suspectLoop (fun b => ((bs[b]?).map (p.succs bs)).getD [] ++ (f.disc[b]?).getD [])
    bs.length seed seed

/-- The rewrite of one jump resolution (block_analysis.rs:950-964). -/
def invalidateOne (loc : AIState) (p : Prog) (bs : List (Nat × Nat)) (sus : List Nat)
    (x : Nat × JumpRes) : Nat × JumpRes :=
  match instToBlock bs x.1, p.insts[x.1]? with
  | some b, some d =>
    if sus.contains b then
      let cond := localCond loc x.1 d
      if cond = .alwaysFalse then (x.1, { target := .resolved [x.1 + 1], cond := cond })
      else if x.2.isResolved then (x.1, { target := .top, cond := cond })
      else (x.1, { x.2 with cond := cond })
    else x
  | _, _ => x

/-- `Snapshots::restore_from` for the instructions satisfying `q` (block_analysis.rs:61-68). -/
def restore (st loc : AIState) (q : Nat → Bool) : AIState :=
  { st with
    inputs := fun i => if q i then loc.inputs i else st.inputs i
    outputs := fun i => if q i then loc.outputs i else st.outputs i }

/-- Jumps considered by `run_abstract_interp` (block_analysis.rs:712-720). -/
def Prog.jumpInsts (p : Prog) : List (Nat × InstData) :=
  (p.slice 0 p.insts.length).filter fun x =>
    x.2.isJump && (!x.2.flags.staticJump || (x.2.opcode == op.JUMPI && !x.2.hasConstJumpiCondition))

/-- `run_abstract_interp` (block_analysis.rs:699-757) with the local snapshots `loc`. -/
def runAbstractInterp (code : Code) (limit : Nat) (p : Prog) (loc : AIState) (st : AIState) :
    List (Nat × JumpRes) × AIState :=
  let bs := p.blocks
  let fr := runFixpoint code limit p bs st
  let st1 := if fr.2 then fr.1.ai else restore fr.1.ai loc fun _ => true
  let targets := p.jumpInsts.map fun x => (x.1, resolveJump code st1 x.1 x.2)
  if targets.any (fun r => r.2.target == .top) || !fr.2 then
    let sus := suspects p bs fr.1
    (targets.map (invalidateOne loc p bs sus),
      restore st1 loc fun i => (instToBlock bs i).any sus.contains)
  else (targets, st1)

/-- `block_analysis` (block_analysis.rs:446-460). -/
def blockAnalysis (code : Code) (limit : Nat) (p : Prog) (loc : AIState) (st : AIState) :
    Prog × AIState :=
  let r := runAbstractInterp code limit p loc st
  let commit := r.1.any (fun x => x.2.isResolved) || r.1.any (fun x => x.2.cond != .unknown)
  ((if commit then p.commit r.1 else p).recomputeHasDyn, r.2)

/-- The control-flow passes of `Bytecode::analyze` before deduplication (mod.rs:421-433). -/
def analyzeFlow (code : Code) (limit : Nat) (p : Prog) : Prog × AIState :=
  let p := p.refresh
  let r := blockAnalysisLocal code limit p {}
  let p := r.1.refresh
  let r := blockAnalysis code limit p r.2 r.2
  (r.1.refresh, r.2)

/-! ## What the generated code does at a jump -/

/-- The next instruction the generated code goes to from jump `i` with stack `c` (top first); `none`
is `InvalidJump` (translate/mod.rs:972-1057). The dynamic jump table maps the operand to the
instruction it is a valid destination for (C25). A multi-jump switches on the targets' counters. -/
def Prog.compiledNext (p : Prog) (code : Code) (i : Nat) (d : InstData) (c : List Word) : Option Nat :=
  let w := c.headD 0
  let b := c.tail.headD 0
  let dest : Option Nat :=
    if d.flags.invalidJump then none
    else if d.flags.multiJump then
      (code.target w).filter fun t => ((p.multi.lookup i).getD []).contains t
    else if d.flags.staticJump then some d.staticJumpTarget
    else code.target w
  if d.opcode = op.JUMPI ∧ ¬ d.hasConstJumpiCondition then
    if b = 0#256 then some (i + 1) else dest
  else dest

end Verif
