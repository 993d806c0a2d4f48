import Verif.Model.Program
import Verif.Model.Dse
/-!
# A whole compiled program

Puts the pieces together: the analysed blocks, dead-store elimination, the stack sections with their
checks, the code of each instruction on the deferred stack, and the transfers between blocks
(`translate`, `crates/revmc-codegen/src/compiler/translate/mod.rs`). Deduplication (`DEDUP`), gas and
memory sections are not part of this model.
-/

namespace Verif

/-- What the world outside the stack machine does: the `k`-th executed instruction, at index `i`, with the
given operands (top first) pushes the given words (top first) and has the given effect, if any. -/
abbrev Env (F : Type) := Nat → Nat → List Word → List Word × Option F

/-- The options that matter here: `CompilerOpts::dead_store_elim` (AnalysisConfig::DSE,
bytecode/mod.rs:436-440) and `inspect_stack`. -/
structure WOpts where
  dse : Bool
  inspect : Bool

/-- A block as it is translated. -/
structure CBlock where
  start : Nat
  stop : Nat
  insts : List (Nat × InstData)

/-- A PUSH is translated only if its value was recorded; `unreachable!` otherwise
(translate/mod.rs:630-652, 1095-1097). Skipped, disabled and unknown instructions are handled before
(translate/mod.rs:569-613). -/
def pushTranslates (ai : AIState) (x : Nat × InstData) : Bool :=
  x.2.flags.noop || x.2.flags.disabled || x.2.flags.unknown ||
    !(decide (0x5f ≤ x.2.opcode.toNat) && decide (x.2.opcode.toNat ≤ 0x7f)) || (ai.constOutput x.1).isSome

/-- Dead-store elimination (dead_store_elim.rs:32-139) and translation (translate/mod.rs:501-1172) of one block; `none`
is a panic of the compiler. -/
def compileBlock (o : WOpts) (code : Code) (p : Prog) (ai : AIState) (b : Nat × Nat) : Option CBlock :=
  (if o.dse then dseBlock o.inspect code ai (p.blockInsts b) else some (p.blockInsts b)).bind fun l =>
    if l.all (pushTranslates ai) then some { start := b.1, stop := b.2, insts := l } else none

/-- All blocks. -/
def compileBlocks (o : WOpts) (code : Code) (p : Prog) (ai : AIState) : List (Nat × Nat) → Option (List CBlock)
  | [] => some []
  | b :: bs => (compileBlock o code p ai b).bind fun x => (compileBlocks o code p ai bs).map (x :: ·)

/-- A compiled program. -/
structure Compiled where
  code : Code
  prog : Prog
  ai : AIState
  spec : SpecId
  blocks : List CBlock

/-- The compiler (`Bytecode::analyze`, bytecode/mod.rs:421-460, and `FunctionCx::translate`,
translate/mod.rs:198-470); `none` is a panic. -/
def compileBytes (o : WOpts) (gasTable : UInt8 → BitVec 16) (spec : SpecId) (limit : Nat) (bytes : List UInt8) :
    Option Compiled :=
  let code := (parse gasTable spec bytes).toCode
  let r := analyzeBytes gasTable spec limit bytes
  (compileBlocks o code r.1 r.2 r.1.blocks).map fun bs => { code, prog := r.1, ai := r.2, spec, blocks := bs }

/-- What the code of an instruction computes from its operands by itself: the inline lowerings and the
arithmetic builtins (`Model/Lower.lean`), CODESIZE (translate/mod.rs:860-863), PC (translate/mod.rs:1058-1061) and the pushed
constant. `none`: the result comes from the outside. -/
def ownLogic (code : Code) (i : Nat) (d : InstData) (args : List Word) : Option Word :=
  if 0x5f ≤ d.opcode.toNat ∧ d.opcode.toNat ≤ 0x7f then some (code.imm i)
  else match args with
    | [] =>
      if d.opcode == op.CODESIZE then some (BitVec.ofNat 256 code.codeLen)
      else if d.opcode == op.PC then some (BitVec.ofNat 256 d.data)
      else none
    | _ :: _ =>
      match lowerInline d.opcode (args.map some) with
      | some r => r
      | none => builtinArith d.opcode args

/-- The instruction `i` of a block entered as the `k`-th instruction at `s`. -/
def actOf {F : Type} (code : Code) (p : Prog) (env : Env F) (k s i : Nat) (args : List Word) :
    List Word × Option F :=
  match (p.insts[i]?).bind fun d => ownLogic code i d args with
  | some w => ([w], (env (k + (i - s)) i args).2)
  | none => env (k + (i - s)) i args

/-- What the instructions of a block entered as the `k`-th instruction at `s` leave in the stack slots above their
results: `clob n` for the `n`-th executed instruction. -/
def clobAt (clob : Nat → Int → Word) (k s i : Nat) : Int → Word := clob (k + (i - s))

/-- The outcome of checked straight-line code. -/
inductive Chk (E : Type)
  | done (cx : SCx E)
  | fail (f : StackFail) (cx : SCx E)
  | panic

/-- The bounds check at the head of a section (translate/mod.rs:601-604, 1765-1801). -/
def headCheck {E : Type} (ts : List (TInst E)) (cx : SCx E) : Option StackFail :=
  checkStackBounds (ts.foldl (fun a t => a.process t.inp t.out) ({} : StackAcc)).section cx.lenVar.toNat

/-- The sections of a block, each with its check (translate/mod.rs:569-613). -/
def checkedSections {E : Type} : List (List (TInst E)) → SCx E → Chk E
  | [], cx => .done cx
  | ts :: rest, cx =>
    match headCheck ts cx with
    | some f => .fail f cx
    | none =>
      match SCx.runSection ts cx with
      | none => .panic
      | some cx => checkedSections rest cx

/-- The instructions before the `n`-th of a block; the section of the `n`-th has passed its check. -/
def checkedPrefix {E : Type} : Nat → List (List (TInst E)) → SCx E → Chk E
  | _, [], cx => .done cx
  | n, ts :: rest, cx =>
    match headCheck ts cx with
    | some f => .fail f cx
    | none =>
      if ts.length ≤ n then
        match SCx.runSection ts cx with
        | none => .panic
        | some cx => checkedPrefix (n - ts.length) rest cx
      else
        match SCx.partSection (ts.take n) (SCx.head ts cx) with
        | none => .panic
        | some cx => .done cx

/-- DUPN, SWAPN and EXCHANGE with an undecodable immediate fail (translate/mod.rs:1100-1115). -/
def badImm (code : Code) (x : Nat × InstData) : Bool :=
  !(x.2.flags.disabled || x.2.flags.unknown) &&
    (x.2.opcode == op.DUPN || x.2.opcode == op.SWAPN || x.2.opcode == op.EXCHANGE) &&
    (decodeImm code x.1 x.2.opcode).isNone

/-- Where the compiled program is. -/
inductive COut (F : Type)
  /-- at the start of block `i`, after `k` instructions -/
  | running (k i : Nat) (cx : SCx (Option F))
  /-- ended by instruction `i` -/
  | halted (i : Nat) (cx : SCx (Option F))
  | invalidJump (cx : SCx (Option F))
  | stackError (f : StackFail) (cx : SCx (Option F))
  | badImmediate (i : Nat) (cx : SCx (Option F))
  | panic

/-- The code of the sections of a block. -/
def Compiled.secs {F : Type} (C : Compiled) (env : Env F) (clob : Nat → Int → Word) (k : Nat) (b : CBlock) :
    List (List (TInst (Option F))) :=
  (splitSections C.spec b.insts).map
    (List.map (toT C.code C.ai (actOf C.code C.prog env k b.start) (clobAt clob k b.start)))

/-- The end of a block (translate/mod.rs:972-1057 for jumps, 545-558 for falling through): a jump is decided on
the operands its code has read. -/
def Compiled.leave {F : Type} (C : Compiled) (k : Nat) (b : CBlock) (cx : SCx (Option F)) : COut F :=
  match C.prog.insts[b.stop - 1]? with
  | none => .panic
  | some d =>
    if d.flags.disabled || d.flags.unknown then .halted (b.stop - 1) cx
    else if d.isJump then
      match cx.trace.head? with
      | some (.branched t c) =>
        match C.prog.compiledNext C.code (b.stop - 1) d [t.getD 0, c.getD 0] with
        | some i => .running (k + (b.stop - b.start)) i cx
        | none => .invalidJump cx
      | _ => .panic
    else if d.isDiverging then .halted (b.stop - 1) cx
    else .running (k + (b.stop - b.start)) b.stop cx

/-- One block, from its first instruction. -/
def Compiled.block {F : Type} (C : Compiled) (env : Env F) (clob : Nat → Int → Word) (k i : Nat)
    (cx : SCx (Option F)) : COut F :=
  match C.blocks.find? fun b => b.start == i with
  | none => .panic
  | some b =>
    match b.insts.findIdx? (badImm C.code) with
    | some n =>
      match checkedPrefix n (C.secs env clob k b) cx with
      | .done cx => .badImmediate (b.start + n) cx
      | .fail f cx => .stackError f cx
      | .panic => .panic
    | none =>
      match checkedSections (C.secs env clob k b) cx with
      | .done cx => C.leave k b cx
      | .fail f cx => .stackError f cx
      | .panic => .panic

/-- `n` blocks of the compiled program, started with an empty stack in a buffer holding `mem`
(translate/mod.rs:345-354). -/
def Compiled.run {F : Type} (C : Compiled) (env : Env F) (clob : Nat → Int → Word) (mem : Int → Word) :
    Nat → COut F
  | 0 => .running 0 0 { mem := mem }
  | n + 1 =>
    match C.run env clob mem n with
    | .running k i cx => C.block env clob k i cx
    | o => o

end Verif
