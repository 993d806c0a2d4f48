import Verif.Model.Sections
/-!
# The deferred ("virtual") stack of the code generator

Models `crates/revmc-codegen/src/compiler/translate/vstack.rs` and the stack helpers of
`crates/revmc-codegen/src/compiler/translate/mod.rs`.

Code generation and execution of the generated code are modelled together: within one stack section
the generated code is straight-line, so an SSA value *is* the word it has in the execution at hand,
and emitting a load or a store is performing it.
-/

namespace Verif

/-- `VSlot` (vstack.rs:11-16). -/
inductive VSlot
  | mat
  | virt (v : Word)
deriving DecidableEq, Repr

/-- `VStack` (vstack.rs:25-33). Simplification: the vector `slots` is given by its length and its
contents. The `i32` offsets are unbounded integers (a section of 2^31 slots does not exist). -/
structure VStack where
  base : Int := 0
  top : Int := 0
  cap : Int := 0
  slots : Int → Option VSlot := fun _ => none

namespace VStack

/-- `reset` (vstack.rs:49-60). -/
def reset (inputs growth : Nat) : VStack :=
  { base := -(inputs : Int), top := 0, cap := inputs + growth
    slots := fun i => if 0 ≤ i ∧ i < inputs then some .mat else none }

/-- `offset_at_depth` (vstack.rs:69-71). -/
def offsetAtDepth (s : VStack) (depth : Nat) : Int := s.top - 1 - depth

/-- The range test of `idx` (vstack.rs:73-85): outside it indexing the vector panics. -/
def inRange (s : VStack) (off : Int) : Bool := decide (0 ≤ off - s.base ∧ off - s.base < s.cap)

/-- `get` (vstack.rs:88-91); `none` is a panic (index out of range, or `unwrap` of an unset slot). -/
def get (s : VStack) (depth : Nat) : Option VSlot :=
  if s.inRange (s.offsetAtDepth depth) then s.slots (s.offsetAtDepth depth - s.base) else none

/-- `get_at_offset` (vstack.rs:95-101). -/
def getAtOffset (s : VStack) (off : Int) : VSlot :=
  if s.inRange off then (s.slots (off - s.base)).getD .mat else .mat

/-- Assignment to one element of the slot vector. -/
def setSlot (s : VStack) (off : Int) (v : VSlot) : VStack :=
  { s with slots := fun i => if i = off - s.base then some v else s.slots i }

/-- `set_at_offset` (vstack.rs:110-113); `none` is a panic. -/
def setAtOffset (s : VStack) (off : Int) (v : Word) : Option VStack :=
  if s.inRange off then some (s.setSlot off (.virt v)) else none

/-- `set` (vstack.rs:104-107); `none` is a panic. -/
def set (s : VStack) (depth : Nat) (v : Word) : Option VStack :=
  s.setAtOffset (s.offsetAtDepth depth) v

/-- `push` and `push_mem` (vstack.rs:116-128); `none` is a panic. -/
def pushSlot (s : VStack) (v : VSlot) : Option VStack :=
  if s.inRange s.top then some { s.setSlot s.top v with top := s.top + 1 } else none

/-- `drop_top` (vstack.rs:131-139); `none` is a failed debug assertion. -/
def dropTop (s : VStack) (n : Int) : Option VStack :=
  if s.base ≤ s.top - n then some { s with top := s.top - n } else none

/-- The value `pending_stores` yields for one offset (vstack.rs:157-168). -/
def pendingAt (s : VStack) (off : Int) : Option Word :=
  if s.inRange off then
    match s.slots (off - s.base) with
    | some (.virt v) => some v
    | _ => none
  else none

/-- `virtual_count` (vstack.rs:147-149). -/
def virtualCount (s : VStack) : Nat :=
  ((List.range (s.top - s.base).toNat).filter fun (k : Nat) => (s.pendingAt (s.base + k)).isSome).length

/-- `mark_materialized_range` (vstack.rs:174-187). -/
def markMaterialized (s : VStack) (lo hi : Int) : VStack :=
  { s with slots := fun i =>
      if lo ≤ i + s.base ∧ i + s.base < hi ∧ s.inRange (i + s.base) then
        (s.slots i).map fun _ => .mat
      else s.slots i }

end VStack

/-- An observable event of the generated code: the logic of an instruction runs on the given operands
(with effect `e`), execution is suspended and the caller sees a stack (bottom first), or a branch is
decided on the operands it reads. -/
inductive Ev (E : Type)
  | ran (e : E)
  | suspended (stack : List Word)
  | branched (target cond : Option Word)
deriving DecidableEq, Repr

/-- How an instruction is lowered, as far as the stack is concerned (`translate_inst`,
translate/mod.rs:716-1165, `try_peephole`, peephole.rs:22-41). -/
inductive Lower
  /-- JUMPDEST -/
  | nop
  /-- POP: `pop_ignore` -/
  | popIgnore
  /-- operands popped as values, results pushed as values -/
  | inline
  /-- `fold_const` -/
  | fold (c : Word)
  | dup (n : Nat)
  | exchange (n m : Nat)
  /-- builtin on `sp_after_inputs` -/
  | builtin
  /-- builtin on `sp_at_top` -/
  | builtinTop
  /-- `peephole_load` -/
  | loadConst
  /-- `peephole_keccak256` with the two constant arguments -/
  | keccakConst (off len : Word)
  /-- `pay_exp_dynamic_gas` followed by inline code -/
  | expInline
  /-- `pay_exp_dynamic_gas` followed by `fold_const` -/
  | expFold (c : Word)
  /-- `call_common`/`create_common` -/
  | suspend
  /-- JUMP/JUMPI: whether the target and the condition are read -/
  | branch (readTarget isJumpi readCond : Bool)
deriving DecidableEq, Repr

/-- An instruction as the stack part of the code generator sees it, with the results of the analyses
(`const_operand`, `const_output`, the NOOP flag). `act` is what the instruction does to operand values
(top first) in the execution at hand: the words it pushes (top first) and its effect; `clob` is what a
builtin may leave in the stack slots above its results. -/
structure TInst (E : Type) where
  inp : Nat
  out : Nat
  lower : Lower
  constIn : Nat → Option Word := fun _ => none
  constOut : Option Word := none
  noop : Bool := false
  act : List Word → List Word × E
  clob : Int → Word := fun _ => 0

/-- `effective_stack_diff` (translate/mod.rs:2132-2139). -/
def TInst.diff {E : Type} (t : TInst E) : Int :=
  (t.out : Int) - t.inp - (if t.lower = .suspend then 1 else 0)

/-- The stack-related fields of `FunctionCx` (translate/mod.rs:90-160): the virtual stack, the stack
buffer, `section_start_len`, `section_len_offset`, `len_offset`, the `stack_len` variable and
`stored_len_offset`. `trace` records the events, latest first. -/
structure SCx (E : Type) where
  vs : VStack := {}
  mem : Int → Word
  startLen : Int := 0
  secOff : Int := 0
  lenOff : Int := 0
  lenVar : Int := 0
  storedOff : Int := 0
  trace : List (Ev E) := []

namespace SCx
variable {E : Type}

/-- `materialize_range` (translate/mod.rs:1648-1655). -/
def materializeRange (cx : SCx E) (lo hi : Int) : SCx E :=
  { cx with
    mem := fun a =>
      if lo ≤ a - cx.startLen ∧ a - cx.startLen < hi then
        (cx.vs.pendingAt (a - cx.startLen)).getD (cx.mem a)
      else cx.mem a
    vs := cx.vs.markMaterialized lo hi }

/-- `materialize_live_stack` (translate/mod.rs:1619-1622). -/
def materializeLive (cx : SCx E) : SCx E := cx.materializeRange cx.vs.base cx.vs.top

/-- `relieve_vstack_pressure` (translate/mod.rs:1626-1646). -/
def relieve (cx : SCx E) : SCx E :=
  if cx.vs.top - cx.vs.base ≤ 2 then cx
  else if cx.vs.virtualCount ≤ 2 then cx
  else
    let coldEnd := max (cx.vs.top - 2) cx.vs.base
    if cx.vs.base < coldEnd then cx.materializeRange cx.vs.base coldEnd else cx

/-- `push` (translate/mod.rs:1296-1299). -/
def push (cx : SCx E) (v : Word) : Option (SCx E) :=
  (cx.vs.pushSlot (.virt v)).map fun vs => { cx with vs, lenOff := cx.lenOff + 1 }

/-- `pop_ignore` (translate/mod.rs:1316-1319). -/
def popIgnore (cx : SCx E) (n : Nat) : Option (SCx E) :=
  (cx.vs.dropTop n).map fun vs => { cx with vs, lenOff := cx.lenOff - n }

/-- `stack_value_at_depth` (translate/mod.rs:1596-1616). -/
def valueAtDepth (t : TInst E) (operandDepth liveDepth : Nat) (cx : SCx E) : Option (Word × SCx E) :=
  match t.constIn operandDepth with
  | some c => some (c, cx)
  | none =>
    match cx.vs.get liveDepth with
    | none => none
    | some (.virt v) => some (v, cx)
    | some .mat =>
      let v := cx.mem (cx.startLen + cx.vs.offsetAtDepth liveDepth)
      (cx.vs.set liveDepth v).map fun vs => (v, { cx with vs })

/-- The loads of `popn` (translate/mod.rs:1327-1335): `n` values from live depth `i` on. -/
def readVals (t : TInst E) (operandBase : Nat) : Nat → Nat → SCx E → Option (List Word × SCx E)
  | 0, _, cx => some ([], cx)
  | n + 1, i, cx =>
    (valueAtDepth t (operandBase + i) i cx).bind fun r =>
      (readVals t operandBase n (i + 1) r.2).map fun q => (r.1 :: q.1, q.2)

/-- `popn` (translate/mod.rs:1327-1338). -/
def popn (t : TInst E) (n : Nat) (cx : SCx E) : Option (List Word × SCx E) :=
  (readVals t (-cx.lenOff).toNat n 0 cx).bind fun r => (r.2.popIgnore n).map fun cx => (r.1, cx)

/-- `dup` (translate/mod.rs:1342-1347). -/
def dup (t : TInst E) (n : Nat) (cx : SCx E) : Option (SCx E) :=
  if n = 0 then none else (valueAtDepth t (n - 1) (n - 1) cx).bind fun r => r.2.push r.1

/-- `exchange` (translate/mod.rs:1358-1364). -/
def exchange (t : TInst E) (n m : Nat) (cx : SCx E) : Option (SCx E) :=
  if m = 0 then none else
  (valueAtDepth t n n cx).bind fun a =>
    (valueAtDepth t (n + m) (n + m) a.2).bind fun b =>
      (b.2.vs.set n b.1).bind fun vs => (vs.set (n + m) a.1).map fun vs => { b.2 with vs }

/-- `write_const_operands` (translate/mod.rs:1554-1567). -/
def writeConstOperands (t : TInst E) (cx : SCx E) : SCx E :=
  { cx with mem := fun a =>
      let off := a - cx.startLen
      let depth := cx.secOff - 1 - off
      if 0 ≤ depth ∧ depth < t.inp then
        match cx.vs.getAtOffset off, t.constIn depth.toNat with
        | .mat, some c => c
        | _, _ => cx.mem a
      else cx.mem a }

/-- `sp_after_inputs` (translate/mod.rs:1524-1535); the pointer is `startLen + secOff - inp`. -/
def spAfterInputs (t : TInst E) (cx : SCx E) : SCx E :=
  let start := cx.secOff - t.inp
  writeConstOperands t (cx.materializeRange start (start + max t.inp t.out))

/-- `sp_after_inputs_with` for one depth (translate/mod.rs:1540-1550). -/
def spAfterInputsWith (t : TInst E) (depth : Nat) (cx : SCx E) : SCx E :=
  let off := cx.secOff - 1 - depth
  writeConstOperands t (cx.materializeRange off (off + 1))

/-- The operands a builtin reads through its stack pointer, top first. -/
def memArgs (cx : SCx E) (n : Nat) : List Word :=
  (List.range n).map fun (d : Nat) => cx.mem (cx.startLen + cx.secOff - 1 - d)

/-- The results a builtin writes through its stack pointer `sp`: `sp[0..out]`, deepest first. It may
leave anything in the rest of its input window. -/
def writeOut (t : TInst E) (sp : Int) (res : List Word) (mem : Int → Word) : Int → Word :=
  fun a =>
    if sp ≤ a ∧ a < sp + t.out then res.getD (sp + t.out - 1 - a).toNat 0
    else if sp ≤ a ∧ a < sp + t.inp then t.clob a
    else mem a

/-- Records that an instruction's logic ran. -/
def ran (cx : SCx E) (e : E) : SCx E := { cx with trace := .ran e :: cx.trace }

/-- Repeated `push_mem` (translate/mod.rs:1279-1281). -/
def pushMems : Nat → VStack → Option VStack
  | 0, s => some s
  | n + 1, s => (s.pushSlot .mat).bind (pushMems n)

/-- `sync_virtual_stack_diff` (translate/mod.rs:1214-1293); `none` is a panic. -/
def sync (t : TInst E) (cx : SCx E) : Option (SCx E) :=
  let expected := cx.secOff + t.diff
  if cx.vs.top = expected then some cx
  else if expected < cx.vs.base then none
  else
    let vs := if expected < cx.vs.top then cx.vs.dropTop (cx.vs.top - expected)
      else pushMems (expected - cx.vs.top).toNat cx.vs
    vs.map fun vs =>
      { cx with vs := if 0 < t.out then vs.markMaterialized (expected - t.out) expected else vs }

/-- `sync_noop_diff` (translate/mod.rs:1179-1204). -/
def syncNoop (t : TInst E) (cx : SCx E) : Option (SCx E) :=
  let expected := cx.secOff + t.diff
  if cx.vs.top = expected then some cx
  else if expected < cx.vs.top then (cx.vs.dropTop (cx.vs.top - expected)).map fun vs => { cx with vs }
  else
    match (if expected - cx.vs.top = 1 then t.constOut else none) with
    | some c => (cx.vs.pushSlot (.virt c)).map fun vs => { cx with vs }
    | none => (pushMems (expected - cx.vs.top).toNat cx.vs).map fun vs => { cx with vs }

/-- Pushes a list of results (none or one). -/
def pushAll : List Word → SCx E → Option (SCx E)
  | [], cx => some cx
  | w :: ws, cx => (pushAll ws cx).bind fun cx => cx.push w

/-- The opcode logic of `translate_inst` and `try_peephole` for each way of lowering, without the
final synchronisation. -/
def body (t : TInst E) (cx : SCx E) : Option (SCx E) :=
  match t.lower with
  | .nop => some cx
  | .popIgnore => cx.popIgnore t.inp
  | .inline => (popn t t.inp cx).bind fun r => pushAll (t.act r.1).1 (r.2.ran (t.act r.1).2)
  | .fold c => (cx.popIgnore t.inp).bind fun cx => cx.push c
  | .dup n => dup t n cx
  | .exchange n m => exchange t n m cx
  | .builtin =>
    let cx := spAfterInputs t cx
    let r := t.act (cx.memArgs t.inp)
    some ({ cx with mem := writeOut t (cx.startLen + cx.secOff - t.inp) r.1 cx.mem }.ran r.2)
  | .builtinTop =>
    let r := t.act []
    some ({ cx with mem := writeOut t (cx.startLen + cx.secOff) r.1 cx.mem }.ran r.2)
  | .loadConst =>
    let r := t.act ((List.range t.inp).map fun d => (t.constIn d).getD 0)
    let sp := cx.startLen + cx.secOff - 1
    let cx := { cx with mem := writeOut t sp r.1 cx.mem }.ran r.2
    (cx.vs.setAtOffset (cx.secOff - 1) (cx.mem sp)).map fun vs => { cx with vs }
  | .keccakConst off len =>
    let cx := writeConstOperands t cx
    let r := t.act [off, len]
    some ({ cx with mem := writeOut t (cx.startLen + cx.secOff - t.inp) r.1 cx.mem }.ran r.2)
  | .expInline =>
    (popn t t.inp (spAfterInputsWith t 1 cx)).bind fun r =>
      pushAll (t.act r.1).1 (r.2.ran (t.act r.1).2)
  | .expFold c =>
    let cx := spAfterInputsWith t 1 cx
    let r := t.act [(t.constIn 0).getD 0, cx.mem (cx.startLen + cx.secOff - 2)]
    ((cx.ran r.2).popIgnore t.inp).bind fun cx => cx.push c
  | .suspend =>
    let cx := spAfterInputs t cx
    let r := t.act (cx.memArgs t.inp)
    let cx := ({ cx with mem := writeOut { t with out := 0 } (cx.startLen + cx.secOff - t.inp) [] cx.mem
      }.ran r.2).materializeLive
    -- The caller sees the first `lenVar` words, pushes the result and resumes; words above the
    -- length are not preserved.
    some { cx with
      trace := .suspended ((List.range cx.lenVar.toNat).map fun (k : Nat) => cx.mem k) :: cx.trace
      mem := fun a => if a = cx.lenVar then r.1.headD 0 else if cx.lenVar < a then t.clob a else cx.mem a
      lenVar := cx.lenVar + 1 }
  | .branch rt isJumpi rc =>
    let popOne (rd : Bool) (cx : SCx E) : Option (Option Word × SCx E) :=
      if rd then (popn t 1 cx).map fun r => (r.1[0]?, r.2)
      else (cx.popIgnore 1).map fun cx => (none, cx)
    (popOne rt cx).bind fun r =>
      (if isJumpi then popOne rc r.2 else some (none, r.2)).map fun q =>
        { q.2 with trace := .branched r.1 q.1 :: q.2.trace }.materializeLive

/-- Whether the lowering leaves the section by itself, without synchronising. -/
def _root_.Verif.Lower.leaves : Lower → Bool
  | .suspend | .branch .. => true
  | _ => false

/-- `translate_inst` (translate/mod.rs:502-1172) after the section-head work, up to the flush. -/
def step (t : TInst E) (cx : SCx E) : Option (SCx E) :=
  let cx := { cx with lenOff := 0 }
  if t.noop then (syncNoop t cx).map fun cx => { cx with secOff := cx.secOff + t.diff }
  else
    let newOff := cx.secOff + t.diff
    let cx := if newOff = cx.storedOff then cx
      else { cx with lenVar := cx.startLen + newOff, storedOff := newOff }
    match (if 0 < t.out then t.constOut else none) with
    | some c =>
      -- `inp + 1 - out` is computed in `u8`; it underflows (a panic in debug builds) when out > inp+1.
      if t.inp + 1 < t.out then none else
      ((cx.vs.dropTop ((t.inp : Int) + 1 - t.out)).bind fun vs =>
        ({ cx with vs, lenOff := cx.lenOff - (t.inp + 1 - t.out) } : SCx E).push c).map fun cx =>
          { cx with secOff := cx.secOff + t.diff }
    | none =>
      if t.lower.leaves then body t cx
      else ((body t cx).bind (sync t)).map fun cx => { cx with secOff := cx.secOff + t.diff }

/-- The section head (translate/mod.rs:572-591). -/
def head (ts : List (TInst E)) (cx : SCx E) : SCx E :=
  let s := (ts.foldl (fun a t => a.process t.inp t.out) ({} : StackAcc)).section
  { cx with startLen := cx.lenVar, secOff := 0, storedOff := 0
            vs := VStack.reset s.inputs (max s.maxGrowth 0).toNat }

/-- The instructions of a section with the flush after each (translate/mod.rs:544-556): before the
next section everything is materialised, within the section only the pressure is relieved. -/
def steps : List (TInst E) → SCx E → Option (SCx E)
  | [], cx => some cx
  | [t], cx => (step t cx).map fun cx => if t.lower.leaves then cx else cx.materializeLive
  | t :: t' :: ts, cx => (step t cx).bind fun cx => steps (t' :: ts) cx.relieve

/-- One stack section. -/
def runSection (ts : List (TInst E)) (cx : SCx E) : Option (SCx E) := steps ts (head ts cx)

/-- A sequence of stack sections. -/
def runSections : List (List (TInst E)) → SCx E → Option (SCx E)
  | [], cx => some cx
  | ts :: rest, cx => (runSection ts cx).bind (runSections rest)

/-- The instructions of a section the execution gets through when it stops before the section's end
(a builtin fails, or a gas or memory check does). -/
def partSection : List (TInst E) → SCx E → Option (SCx E)
  | [], cx => some cx
  | t :: ts, cx => (step t cx).bind fun cx => partSection ts cx.relieve

/-- The first `n` instructions of a sequence of sections. -/
def runPrefix : Nat → List (List (TInst E)) → SCx E → Option (SCx E)
  | _, [], cx => some cx
  | 0, _ :: _, cx => some cx
  | n + 1, ts :: rest, cx =>
    if ts.length ≤ n + 1 then (runSection ts cx).bind (runPrefix (n + 1 - ts.length) rest)
    else partSection (ts.take (n + 1)) (head ts cx)

end SCx
end Verif
