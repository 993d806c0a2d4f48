import Verif.Model.Whole
import Verif.Model.Dedup
/-!
# A whole compiled program with deduplicated blocks

`Model/Whole.lean` with `AnalysisConfig::DEDUP`: blocks are merged after the control-flow analysis
(`bytecode/mod.rs`:433-436), and every transfer between blocks looks up the redirects
(`translate/mod.rs`:472-498). Gas and memory sections are not part of this model.
-/

namespace Verif

/-- `local_snapshots` (bytecode/mod.rs:422-427): what the block-local analysis of the freshly parsed program
records. -/
def localSnapshots (code : Code) (limit : Nat) (p : Prog) : AIState := (blockAnalysisLocal code limit p.refresh {}).2

/-- A compiled program and its redirects. -/
structure DCompiled extends Compiled where
  redirects : Redirects

/-- `dedup_blocks` and the following `refresh_cfg` (bytecode/mod.rs:433-436) on an analysed program; `none` is a
panic. Every round but the last removes a block, so the rounds suffice. -/
def dedupProg (loc : AIState) (r : Prog × AIState) : Option DState :=
  (DState.dedup loc (r.1.blocks.length + 1) { prog := r.1, ai := r.2 }).bind DState.refresh

/-- The compiler with deduplication (`Bytecode::analyze`, bytecode/mod.rs:421-460, and `FunctionCx::translate`,
translate/mod.rs:198-470); `none` is a panic. -/
def compileDedup (o : WOpts) (gasTable : UInt8 → BitVec 16) (spec : SpecId) (limit : Nat) (bytes : List UInt8) :
    Option DCompiled :=
  let b := parse gasTable spec bytes
  (dedupProg (localSnapshots b.toCode limit b.toProg) (analyzeBytes gasTable spec limit bytes)).bind fun s =>
    (compileBlocks o b.toCode s.prog s.ai s.prog.blocks).map fun bs =>
      { code := b.toCode, prog := s.prog, ai := s.ai, spec, blocks := bs, redirects := s.redirects }

/-- `effective_next_entry` (translate/mod.rs:490-498), the block behind instruction `i - 1`: looked up twice. -/
def DCompiled.nextEntry (D : DCompiled) (i : Nat) : Nat := effective D.redirects (effective D.redirects i)

/-- The end of a block (translate/mod.rs:972-1057 for jumps, 519-558 for falling through): as
`Compiled.leave`, through `effective_entry` for jump targets, also in the dynamic jump table
(translate/mod.rs:326-335), and through `effective_next_entry` for falling through. -/
def DCompiled.leave {F : Type} (D : DCompiled) (k : Nat) (b : CBlock) (cx : SCx (Option F)) : COut F :=
  match D.prog.insts[b.stop - 1]? with
  | none => .panic
  | some d =>
    if d.flags.disabled || d.flags.unknown then .halted (b.stop - 1) cx
    else if d.isJump then
      match cx.trace.head? with
      | some (.branched t c) =>
        if d.opcode = op.JUMPI ∧ ¬ d.hasConstJumpiCondition ∧ c.getD 0 = 0#256 then
          .running (k + (b.stop - b.start)) (D.nextEntry b.stop) cx
        else
          match D.prog.compiledNext D.code (b.stop - 1) d [t.getD 0, c.getD 0] with
          | some i => .running (k + (b.stop - b.start)) (effective D.redirects i) cx
          | none => .invalidJump cx
      | _ => .panic
    else if d.isDiverging then .halted (b.stop - 1) cx
    else .running (k + (b.stop - b.start)) (D.nextEntry b.stop) cx

/-- One block, from its first instruction (translate/mod.rs:501-1172). -/
def DCompiled.block {F : Type} (D : DCompiled) (env : Env F) (clob : Nat → Int → Word) (k i : Nat)
    (cx : SCx (Option F)) : COut F :=
  match D.blocks.find? fun b => b.start == i with
  | none => .panic
  | some b =>
    match b.insts.findIdx? (badImm D.code) with
    | some n =>
      match checkedPrefix n (D.toCompiled.secs env clob k b) cx with
      | .done cx => .badImmediate (b.start + n) cx
      | .fail f cx => .stackError f cx
      | .panic => .panic
    | none =>
      match checkedSections (D.toCompiled.secs env clob k b) cx with
      | .done cx => D.leave k b cx
      | .fail f cx => .stackError f cx
      | .panic => .panic

/-- `n` blocks of the compiled program, started with an empty stack at the first instruction, whose entry is not
looked up in the redirects (translate/mod.rs:308-312, 345-354). -/
def DCompiled.run {F : Type} (D : DCompiled) (env : Env F) (clob : Nat → Int → Word) (mem : Int → Word) :
    Nat → COut F
  | 0 => .running 0 0 { mem := mem }
  | n + 1 =>
    match D.run env clob mem n with
    | .running k i cx => D.block env clob k i cx
    | o => o

end Verif
