import Verif.Model.Flow
import Verif.Model.AMap
/-!
# Block deduplication and redirects

Models `dedup_blocks` (`passes/dedup.rs`), the redirect map (`Bytecode::redirects`, mod.rs:198-200) and
`refresh_cfg` in the presence of redirects (`passes/block_analysis.rs`:547-693, `mod.rs`:477-530).

Simplified: `HashMap` iteration follows insertion order (the groups of one round touch disjoint blocks);
`to_ne_bytes` is little-endian. A Rust loop that would not end, and a panic, are `none`.
-/

namespace Verif

/-- Dead-block redirects (mod.rs:198-200). -/
abbrev Redirects := AMap Nat Nat

/-- `while let Some(&next) = self.redirects.get(&target)` (mod.rs:501-503, block_analysis.rs:566-568);
`none` if the loop is still running after `fuel` steps. -/
def followFuel (m : Redirects) : Nat → Nat → Option Nat
  | 0, _ => none
  | fuel + 1, t => match m.get t with
    | none => some t
    | some n => followFuel m fuel n

/-- The loop without a bound on its steps: a chain that visits no instruction twice has at most
`m.length` steps. -/
def follow (m : Redirects) (t : Nat) : Option Nat := followFuel m (t + m.length + 1) t

/-- The loop of `compress_redirects` (block_analysis.rs:563-572) over the collected keys `ks`. -/
def compressLoop : List Nat → Redirects → Option Redirects
  | [], m => some m
  | k :: ks, m =>
    match m.get k with
    | none => none
    | some t => (follow m t).bind fun e => compressLoop ks (if e ≠ t then m.insert k e else m)

/-- `compress_redirects` (block_analysis.rs:556-573). -/
def compress (m : Redirects) : Option Redirects := compressLoop m.keys m

/-- `effective_inst` (translate/mod.rs:481-483), also `resolve` in `rebuild_cfg`
(block_analysis.rs:656-659) before the block lookup. -/
def effective (m : Redirects) (i : Nat) : Nat := (m.get i).getD i

/-- The fields of `Bytecode` deduplication works on (mod.rs:161-216). -/
structure DState where
  prog : Prog
  redirects : Redirects := []
  ai : AIState := {}

/-- `recompute_reachable_jumpdests` with redirects (mod.rs:477-511). -/
def Prog.reachableR (m : Redirects) (p : Prog) : Option Prog :=
  ((p.collect 0 p.insts).mapM (follow m)).map fun ts =>
    { p with insts := p.insts.mapIdx fun i d =>
        if d.isJumpdest then { d with reachable := ts.contains i } else d }

/-- `mark_dead_code` with redirects (mod.rs:521-530). -/
def markDeadR (m : Redirects) : Nat → Prog → Option Prog
  | 0, _ => none
  | fuel + 1, p =>
    let p' := { p with insts := markLoop p.hasDyn 0 none p.insts }
    if markedJump p.insts p'.insts then (p'.recomputeHasDyn.reachableR m).bind (markDeadR m fuel)
    else some p'

/-- `refresh_cfg` (block_analysis.rs:547-553); the CFG itself is computed on demand. -/
def DState.refresh (s : DState) : Option DState :=
  (s.prog.recomputeHasDyn.reachableR s.redirects).bind fun p =>
    (markDeadR s.redirects (p.insts.length + 1) p).bind fun p =>
      (compress s.redirects).map fun m => { s with prog := p, redirects := m }

/-- The successors of a block, through redirects (block_analysis.rs:651-690). -/
def DState.succs (s : DState) (bs : List (Nat × Nat)) (b : Nat × Nat) : List Nat :=
  match s.prog.insts[b.2 - 1]? with
  | none => []
  | some d =>
    let resolve (t : Nat) := instToBlock bs (effective s.redirects t)
    let fall := if d.canFallThrough then (resolve (b.2 - 1 + 1)).toList else []
    let ts :=
      if d.flags.multiJump ∧ (s.prog.multi.lookup (b.2 - 1)).isSome then
        (s.prog.multi.lookup (b.2 - 1)).getD []
      else if d.isStaticJump && !d.flags.invalidJump then [d.staticJumpTarget] else []
    (ts.filterMap resolve).foldl addSucc fall

/-- `u32::to_ne_bytes` on a little-endian machine. -/
def leBytes (n : Nat) : List UInt8 :=
  [UInt8.ofNat n, UInt8.ofNat (n / 256), UInt8.ofNat (n / 65536), UInt8.ofNat (n / 16777216)]

/-- One instruction in `block_fingerprint` (dedup.rs:203-212). -/
def instPrint (d : InstData) : List UInt8 :=
  d.opcode :: if 0 < minImmLen d.opcode then (leBytes d.data).dropWhile (· == 0) else []

/-- `block_fingerprint` (dedup.rs:200-214). -/
def fingerprint (l : List (Nat × InstData)) : List UInt8 := l.flatMap fun x => instPrint x.2

/-- `DedupKey` (dedup.rs:28-37). -/
structure DedupKey where
  fingerprint : List UInt8
  succs : List Nat
  isMulti : Bool
deriving DecidableEq, Repr

/-- The key of a block, if it is eligible (dedup.rs:75-112). -/
def DState.key (s : DState) (bs : List (Nat × Nat)) (b : Nat × Nat) : Option DedupKey :=
  match s.prog.insts[b.2 - 1]?, s.prog.insts[b.1]? with
  | some term, some first =>
    if term.canFallThrough then none
    else if s.prog.hasDyn && first.isReachableJumpdest true then none
    else if (s.prog.blockInsts b).any fun x => x.2.opcode == op.PC then none
    else if term.isJump && !term.flags.staticJump then none
    else
      let fp := fingerprint (s.prog.blockInsts b)
      if fp.isEmpty then none
      else some { fingerprint := fp, succs := s.succs bs b, isMulti := term.flags.multiJump }
  | _, _ => none

/-- `key_to_blocks.entry(key).or_default().push(bid)` (dedup.rs:108-111). -/
def pushGroup (k : DedupKey) (b : Nat) : List (DedupKey × List Nat) → List (DedupKey × List Nat)
  | [] => [(k, [b])]
  | (k', l) :: r => if k' = k then (k', l ++ [b]) :: r else (k', l) :: pushGroup k b r

/-- The first loop of `dedup_blocks_once` (dedup.rs:75-112). -/
def DState.groups (s : DState) (bs : List (Nat × Nat)) : List (DedupKey × List Nat) :=
  (bs.zipIdx).foldl (fun gs x => match s.key bs x.1 with
    | none => gs
    | some k => pushGroup k x.2 gs) []

/-- Merging the targets of a duplicate's multi-jump (dedup.rs:150-163). The `unwrap` of the canonical
block's targets panics if there are none. -/
def mergeTargets (p : Prog) (canonTerm dupTerm : Nat) : Option Prog :=
  if (p.insts[dupTerm]?).any (·.flags.multiJump) then
    match p.multi.lookup dupTerm with
    | none => some p
    | some ts =>
      match (multiRemove p.multi dupTerm).lookup canonTerm with
      | none => none
      | some cs => some { p with
          multi := multiInsert (multiRemove p.multi dupTerm) canonTerm (ts.foldl addSucc cs) }
  else some p

/-- Retargeting one predecessor's static jump (dedup.rs:166-175). -/
def retarget (dup canon : Nat) (p : Prog) (pred : Nat × Nat) : Prog :=
  p.modify (pred.2 - 1) fun d =>
    if d.isStaticJump && !d.flags.invalidJump && !d.flags.multiJump && d.staticJumpTarget == dup then
      { d with data := canon }
    else d

/-- Merging one duplicate block into the canonical one (dedup.rs:130-183); `preds` are the duplicate's
predecessor blocks. -/
def DState.merge (s : DState) (preds : List (Nat × Nat)) (canon dup : Nat × Nat) : Option DState :=
  let p := { s.prog with insts := s.prog.insts.mapIdx fun i d =>
    if dup.1 ≤ i ∧ i < dup.2 then { d with flags := { d.flags with deadCode := true } } else d }
  let p := if (p.insts[dup.1]?).any (fun d => d.isJumpdest && d.reachable) &&
      (p.insts[canon.1]?).any (·.isJumpdest) then
      p.modify canon.1 fun d => { d with reachable := true }
    else p
  (mergeTargets p (canon.2 - 1) (dup.2 - 1)).map fun p =>
    { s with
      prog := preds.foldl (retarget dup.1 canon.1) p
      redirects := s.redirects.insert dup.1 canon.1 }

/-- The blocks with numbers `ids`. -/
def pickBlocks (bs : List (Nat × Nat)) (ids : List Nat) : List (Nat × Nat) := ids.filterMap (bs[·]?)

/-- The predecessor blocks of block number `b` (block_analysis.rs:661-690). -/
def predBlocks (bs : List (Nat × Nat)) (succ : Nat × Nat → List Nat) (b : Nat) : List (Nat × Nat) :=
  bs.filter fun x => (succ x).contains b

/-- The duplicates of one group, in order (dedup.rs:126-184). -/
def DState.mergeAll (bs : List (Nat × Nat)) (succ : Nat × Nat → List Nat) (canon : Nat × Nat) :
    List Nat → DState → Option DState
  | [], s => some s
  | b :: rest, s =>
    match bs[b]? with
    | none => none
    | some dup => (s.merge (predBlocks bs succ b) canon dup).bind (DState.mergeAll bs succ canon rest)

/-- One group (dedup.rs:115-184): restore the canonical block's local snapshots, merge the others. -/
def DState.mergeGroup (loc : AIState) (bs : List (Nat × Nat)) (succ : Nat × Nat → List Nat)
    (group : List Nat) (s : DState) : Option DState :=
  match group with
  | c :: d :: rest =>
    match bs[c]? with
    | none => none
    | some canon =>
      DState.mergeAll bs succ canon (d :: rest)
        { s with ai := restore s.ai loc fun i => decide (canon.1 ≤ i) && decide (i < canon.2) }
  | _ => some s

/-- The second loop of `dedup_blocks_once` (dedup.rs:114-185). -/
def DState.mergeGroups (loc : AIState) (bs : List (Nat × Nat)) (succ : Nat × Nat → List Nat) :
    List (List Nat) → DState → Option DState
  | [], s => some s
  | g :: gs, s => (s.mergeGroup loc bs succ g).bind (DState.mergeGroups loc bs succ gs)

/-- `dedup_blocks_once` (dedup.rs:70-188): the new state and the number of merged blocks. -/
def DState.once (loc : AIState) (s : DState) : Option (DState × Nat) :=
  let bs := s.prog.blocks
  let gs := (s.groups bs).map (·.2)
  (DState.mergeGroups loc bs (s.succs bs) gs s).map fun s' => (s', (gs.map (·.length - 1)).sum)

/-- `dedup_blocks` (dedup.rs:55-67); every round but the last kills a block, so `fuel` rounds suffice
for any number of blocks below `fuel`. -/
def DState.dedup (loc : AIState) : Nat → DState → Option DState
  | 0, _ => none
  | fuel + 1, s =>
    match s.once loc with
    | none => none
    | some (s', 0) => some s'
    | some (s', _ + 1) => s'.refresh.bind (DState.dedup loc fuel)

end Verif
