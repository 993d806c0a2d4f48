import Verif.Model.Whole
import Verif.Model.MemSections
/-!
# Memory in a whole compiled program

What the code of a compiled program does with the memory of the call: the buffer, which moves when it grows; the two
fields of the context that cache where it is and how long it is (`EvmContext::mem_base`, `mem_len`,
`crates/revmc-context/src/lib.rs`); and the pointer that the generated code keeps in a register between instructions
(`cached_mem_base`, `crates/revmc-codegen/src/compiler/translate/mod.rs`). The operands of the instructions are those
of the execution (that the code computes them is C54). Only executions that pay for their memory are modelled.
-/

namespace Verif

/-- The results of `construct_memory_sections` (memory_sections.rs:108-128, 238-283) by instruction. The pass runs after
dead-store elimination, which changes nothing that it reads. `none` if the fuel does not suffice. -/
def Compiled.memTable (C : Compiled) (fuel : Nat) : Option (List (Nat × MemSection)) :=
  (memStates C.ai C.prog.memBlocks fuel).map fun states =>
    (List.range C.prog.memBlocks.length).flatMap fun b =>
      ((C.prog.memBlocks[b]?).map fun blk => saveBlock C.ai blk ((states[b]?).getD {})).getD []

/-- The memory: its bytes and where they are (revm's `SharedMemory`, seen from the current call), how often it moved,
the context's copy of both (revmc-context/src/lib.rs:125-128), and the value of the register, if the compiler has one
(`cached_mem_base`, translate/mod.rs:105). Addresses are natural numbers. -/
structure MCx where
  base : Nat
  bytes : List UInt8
  moves : Nat
  memBase : Nat
  memLen : Nat
  cached : Option Nat
deriving DecidableEq, Repr

/-- `refresh_memory_cache` (revmc-context/src/lib.rs:191-198). -/
def MCx.refresh (cx : MCx) : MCx := { cx with memBase := cx.base, memLen := cx.bytes.length }

/-- `ensure_memory` (revmc-builtins/src/utils.rs:84-95) with revm's `resize_memory`: growing may move the memory to
any address, new bytes are zero. -/
def MCx.ensure (mv : Nat → Nat) (off len : Nat) (cx : MCx) : MCx :=
  MCx.refresh <|
    if cx.bytes.length < mresizeLen cx.bytes.length (off + len) then
      { cx with
        base := mv (cx.moves + 1), moves := cx.moves + 1
        bytes := cx.bytes ++ List.replicate (mresizeLen cx.bytes.length (off + len) - cx.bytes.length) 0 }
    else cx

/-- Reading `n` bytes at an address; `none` if they are not in the memory: undefined behaviour. -/
def MCx.read (cx : MCx) (addr n : Nat) : Option (List UInt8) :=
  if cx.base ≤ addr ∧ addr + n ≤ cx.base + cx.bytes.length then some ((cx.bytes.drop (addr - cx.base)).take n) else none

/-- Writing bytes at an address. -/
def MCx.write (cx : MCx) (addr : Nat) (bs : List UInt8) : Option MCx :=
  if cx.base ≤ addr ∧ addr + bs.length ≤ cx.base + cx.bytes.length then
    some { cx with
      bytes := cx.bytes.take (addr - cx.base) ++ bs ++ cx.bytes.drop (addr - cx.base + bs.length) }
  else none

/-- The integer stored in bytes, least significant first. -/
def leVal : List UInt8 → Nat
  | [] => 0
  | b :: l => b.toNat + 256 * leVal l

/-- An integer in `n` bytes, least significant first. -/
def leEncode : Nat → Nat → List UInt8
  | 0, _ => []
  | n + 1, v => UInt8.ofNat v :: leEncode n (v / 256)

/-- `llvm.bswap.i256` (revmc-llvm/src/lib.rs:1700-1705). -/
def bswap (w : Word) : Word := BitVec.ofNat 256 (leVal (leEncode 32 w.toNat).reverse)

/-- Loading an `i256` on a machine of the given byte order (`load_aligned`, translate/mod.rs:948). -/
def nativeLoad (le : Bool) (bs : List UInt8) : Word := BitVec.ofNat 256 (leVal (if le then bs else bs.reverse))

/-- Storing an `i256` (`store_aligned`, translate/mod.rs:956). -/
def nativeStore (le : Bool) (w : Word) : List UInt8 := if le then leEncode 32 w.toNat else (leEncode 32 w.toNat).reverse

/-- What the model leaves open: the byte order of the machine, where the memory is after it moved, which instructions
that do not touch memory call a builtin, and what builtins write to memory (the `k`-th executed instruction, at `i`,
on the given operands; for calls this is the output of the callee). -/
structure MemWorld where
  le : Bool
  mv : Nat → Nat
  calls : Nat → Bool
  wr : Nat → Nat → List Word → List UInt8 → List UInt8

/-- `build_memory_addr` and `load_memory_base` (translate/mod.rs:1739-1753). -/
def MCx.addr (cx : MCx) (off : Nat) : MCx × Nat :=
  ({ cx with cached := some (cx.cached.getD cx.memBase) }, cx.cached.getD cx.memBase + off)

/-- `build_ensure_memory` (translate/mod.rs:1686-1722): the memory after it, and the address. -/
def MCx.access (mv : Nat → Nat) (skip : Bool) (direct : Nat) (offset : Word) (len : BitVec 64) (cx : MCx) : MCx × Nat :=
  match ensureMemSec skip direct offset len (BitVec.ofNat 64 cx.memLen) with
  | .fast off => (if skip then cx else { cx with cached := none }).addr off.toNat
  | .resize n off => MCx.addr { cx.ensure mv n.toNat 0 with cached := none } off.toNat

/-- The ranges that builtins pass to `ensure_memory` (revmc-builtins/src): do_keccak256 (lib.rs:197-213), calldatacopy
(lib.rs:267-290), codecopy (utils.rs:97-112), extcodecopy (lib.rs:318-340), returndatacopy (lib.rs:343-363), mcopy
(lib.rs:577-592), log (lib.rs:594-613), create (lib.rs:639-664), call (lib.rs:701-754), do_return (lib.rs:825-862).
Empty ranges are not passed. -/
def builtinRanges (o : UInt8) (args : List Word) : List (Nat × Nat) :=
  let a (k : Nat) : Nat := (args[k]?.getD 0).toNat
  let rs : List (Nat × Nat) :=
    if o == op.KECCAK256 || o == op.RETURN || o == op.REVERT then [(a 0, a 1)]
    else if o == op.CALLDATACOPY || o == op.CODECOPY || o == op.RETURNDATACOPY then [(a 0, a 2)]
    else if o == op.EXTCODECOPY then [(a 1, a 3)]
    else if o == op.MCOPY then [(max (a 0) (a 1), a 2)]
    else if op.LOG0 ≤ o && o ≤ op.LOG4 then [(a 0, a 1)]
    else if o == op.CREATE || o == op.CREATE2 then [(a 1, a 2)]
    else if o == op.CALL || o == op.CALLCODE then [(a 3, a 4), (a 5, a 6)]
    else if o == op.DELEGATECALL || o == op.STATICCALL then [(a 2, a 3), (a 4, a 5)]
    else []
  rs.filter fun r => r.2 != 0

/-- An instruction that calls a builtin or none (`call_builtin`, translate/mod.rs:1938-1954): the register is forgotten
unless the instruction may skip its check. After a call or creation other frames have used the memory, and the function
is entered anew (revmc-context/src/lib.rs:188). -/
def Compiled.memBuiltin (W : MemWorld) (k i : Nat) (d : InstData) (args : List Word) (skip : Bool) (cx : MCx) : MCx :=
  let cx := (builtinRanges d.opcode args).foldl (fun cx r => cx.ensure W.mv r.1 r.2) cx
  let cx := if (builtinRanges d.opcode args).isEmpty then cx else { cx with bytes := W.wr k i args cx.bytes }
  let cx := if (W.calls i || !(builtinRanges d.opcode args).isEmpty) && !skip then { cx with cached := none } else cx
  if d.maySuspend then MCx.refresh { cx with base := W.mv (cx.moves + 1), moves := cx.moves + 1 } else cx

/-- The first instructions of the stack sections, where the register is forgotten (translate/mod.rs:584-590). -/
def Compiled.heads (C : Compiled) : List Nat :=
  C.blocks.flatMap fun b => (splitSections C.spec b.insts).filterMap fun s => s.head?.map Prod.fst

/-- The instruction at an index as it is translated. -/
def Compiled.instAt (C : Compiled) (i : Nat) : Option InstData := (C.blocks.flatMap (·.insts)).lookup i

/-- The code of an instruction (`translate_inst`, translate/mod.rs:501-1172), as far as memory is concerned: the memory
after it, and the word it reads from memory (MLOAD) or the context (MSIZE). `none` is undefined behaviour. -/
def Compiled.memInst (C : Compiled) (tbl : List (Nat × MemSection)) (W : MemWorld) (k i : Nat) (args : List Word)
    (cx : MCx) : Option (MCx × Option Word) :=
  match C.instAt i with
  | none => none
  | some d =>
    if d.flags.disabled || d.flags.unknown then some (cx, none)
    else
      let cx := if C.heads.contains i then { cx with cached := none } else cx
      if d.flags.noop || (decide (0 < d.stackIo.2) && (C.ai.constOutput i).isSome) then some (cx, none)
      else
        let sec := (tbl.lookup i).getD {}
        let skip := canSkipMem sec (constMemAccesses C.ai i d)
        let offset := args[0]?.getD 0
        if d.opcode == op.MLOAD then
          let r := cx.access W.mv skip sec.direct offset 32
          (r.1.read r.2 32).map fun bs =>
            (r.1, some (if W.le then bswap (nativeLoad W.le bs) else nativeLoad W.le bs))
        else if d.opcode == op.MSTORE then
          let r := cx.access W.mv skip sec.direct offset 32
          let v := args[1]?.getD 0
          (r.1.write r.2 (nativeStore W.le (if W.le then bswap v else v))).map fun cx => (cx, none)
        else if d.opcode == op.MSTORE8 then
          let r := cx.access W.mv skip sec.direct offset 1
          (r.1.write r.2 [UInt8.ofNat (args[1]?.getD 0).toNat]).map fun cx => (cx, none)
        else if d.opcode == op.MSIZE then some (cx, some (BitVec.ofNat 256 cx.memLen))
        else some (memBuiltin W k i d args skip cx, none)

/-- The code of the instructions of an execution, latest first, each with its operands: the memory, and the words read
with the numbers of their instructions (latest first). The function is entered with an empty memory
(revmc-context/src/lib.rs:140-190). -/
def Compiled.memAlong (C : Compiled) (tbl : List (Nat × MemSection)) (W : MemWorld) :
    List (Nat × List Word) → Option (MCx × List (Nat × Word))
  | [] => some (MCx.refresh { base := W.mv 0, bytes := [], moves := 0, memBase := 0, memLen := 0, cached := none }, [])
  | x :: tr =>
    (C.memAlong tbl W tr).bind fun r =>
      (C.memInst tbl W tr.length x.1 x.2 r.1).map fun q => (q.1, q.2.toList.map (fun w => (tr.length, w)) ++ r.2)

end Verif
