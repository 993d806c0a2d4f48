import Verif.Model.ConstFold
/-!
# Abstract stack interpretation

Models the abstract domain and `interpret_block` of
`crates/revmc-codegen/src/bytecode/passes/block_analysis.rs`.

Abstract and concrete stacks are lists with the top of the stack *first* (the Rust vectors have it
last).
-/

namespace Verif

/-! ## Values -/

/-- The sorted merge with de-duplication in `ConstSetInterner::join` (block_analysis.rs:134-154).
Simplification: constants are ordered by value instead of by handle; equality of handles is equality
of values (C06). -/
def mergeSets : List Word → List Word → List Word
  | [], b => b
  | a, [] => a
  | x :: xs, y :: ys =>
    if x.toNat < y.toNat then x :: mergeSets xs (y :: ys)
    else if y.toNat < x.toNat then y :: mergeSets (x :: xs) ys
    else x :: mergeSets xs ys
termination_by a b => a.length + b.length

/-- `ConstSetInterner::intern_set` (block_analysis.rs:116-123). The `unreachable!` for an empty set
is the ill-formed value `constSet []`; `C12_wellformed` shows it never arises. -/
def internSet (s : List Word) : AbsValue :=
  match s with
  | [v] => .const v
  | s => .constSet s

/-- `abs_const_set` (block_analysis.rs:107-113). -/
def AbsValue.constList : AbsValue → Option (List Word)
  | .top => none
  | .const v => some [v]
  | .constSet s => some s

/-- `ConstSetInterner::join` (block_analysis.rs:126-158). Both values are sets in the last arm. -/
def AbsValue.join (a b : AbsValue) : AbsValue :=
  match a.constList, b.constList with
  | some x, some y => if a = b ∧ a.asConst.isSome then a else internSet (mergeSets x y)
  | _, _ => .top

/-! ## Block states -/

/-- `MAX_ABS_STACK_DEPTH` (block_analysis.rs:169). -/
def MAX_ABS_STACK_DEPTH : Nat := 64

/-- `BlockState` (block_analysis.rs:173-178). -/
inductive BlockState
  | bottom
  | known (stack : List AbsValue)
deriving DecidableEq, Repr

/-- Element-wise join of `existing`, resized to `n`, with the top `n` elements of `incoming`, both
padded with `Top` at the bottom (block_analysis.rs:207-226). -/
def joinPadded : Nat → List AbsValue → List AbsValue → List AbsValue
  | 0, _, _ => []
  | n + 1, a, b => (a.headD .top).join (b.headD .top) :: joinPadded n a.tail b.tail

/-- `BlockState::join` (block_analysis.rs:186-230): the new state and whether it changed. -/
def BlockState.join (s : BlockState) (incoming : List AbsValue) : BlockState × Bool :=
  match s with
  | .bottom => (.known (incoming.take MAX_ABS_STACK_DEPTH), true)
  | .known existing =>
    let joinLen := min (max existing.length incoming.length) MAX_ABS_STACK_DEPTH
    let joined := joinPadded joinLen existing incoming
    (.known joined, joined != existing)

/-! ## Interpreting instructions -/

/-- The immutable parts of `Bytecode` the abstract interpreter reads. Simplification: immediates are
given as values (`imm i` is the value of instruction `i`'s immediate through the interner, see C03
and C06), and `target w` is the instruction at counter `w` if that is a valid jump destination
(`usize::try_from`, `is_valid_jump`, `pc_to_inst`: block_analysis.rs:793-798). -/
structure Code where
  codeLen : Nat
  imm : Nat → Word
  target : Word → Option Nat

/-- Mutable state of the interpreter: the two snapshot vectors (block_analysis.rs:54-60; inputs are
kept in Rust order, deepest first) and the compile-time gas counter (mod.rs:213-215). `log` is ghost
state: the cost of every evaluation performed. -/
structure AIState where
  inputs : Nat → List AbsValue := fun _ => []
  outputs : Nat → Option AbsValue := fun _ => none
  gasUsed : Nat := 0
  log : List Nat := []

/-- `u64::MAX`. -/
def U64_MAX : Nat := 2 ^ 64 - 1

/-- The constant-folding attempt of the generic arm (block_analysis.rs:1156-1181): the folded value
and the new gas counter. `+=` wraps (release build). -/
def tryFold (code : Code) (limit : Nat) (st : AIState) (d : InstData) (inp out : Nat)
    (stack : List AbsValue) : Option Word × AIState :=
  if 0 < out ∧ st.gasUsed < limit then
    let inputs := (stack.take inp).reverse
    match constFoldGas d.opcode inputs with
    | none => (none, st)
    | some cost =>
      if min (st.gasUsed + cost) U64_MAX ≤ limit then
        match tryConstFold d inputs code.codeLen with
        | some w => (some w,
            { st with gasUsed := (st.gasUsed + cost) % 2 ^ 64, log := cost :: st.log })
        | none => (none, st)
      else (none, st)
  else (none, st)

/-- Exchanges positions `i` and `j` of a list (`slice::swap`). -/
def swapAt {α : Type} (l : List α) (i j : Nat) : List α :=
  match l[i]?, l[j]? with
  | some x, some y => (l.set i y).set j x
  | _, _ => l

/-- The opcode `match` of `interpret_block` (block_analysis.rs:1083-1195). `none` is `return false`.
-/
def interpOp (code : Code) (limit : Nat) (st : AIState) (i : Nat) (d : InstData)
    (stack : List AbsValue) : Option (List AbsValue) × AIState :=
  let n := d.opcode.toNat
  if 0x5f ≤ n ∧ n ≤ 0x7f then (some (.const (code.imm i) :: stack), st)
  else if n = 0x50 then
    match stack with
    | [] => (none, st)
    | _ :: s => (some s, st)
  else if 0x80 ≤ n ∧ n ≤ 0x8f then
    match stack[n - 0x80]? with
    | none => (none, st)
    | some v => (some (v :: stack), st)
  else if 0x90 ≤ n ∧ n ≤ 0x9f then
    if stack.length < n - 0x8f + 1 then (none, st)
    else (some (swapAt stack 0 (n - 0x8f)), st)
  else if n = 0xe6 then
    match decodeSingle (UInt8.ofNat (code.imm i).toNat) with
    | none => (none, st)
    | some k => (some ((stack[k.toNat - 1]?).getD .top :: stack), st)
  else if n = 0xe7 then
    match decodeSingle (UInt8.ofNat (code.imm i).toNat) with
    | none => (none, st)
    | some k =>
      if stack.length < k.toNat + 1 then
        (some (match stack with | [] => [] | _ :: s => .top :: s), st)
      else (some (swapAt stack 0 k.toNat), st)
  else if n = 0xe8 then
    match decodePair (UInt8.ofNat (code.imm i).toNat) with
    | none => (none, st)
    | some (a, b) =>
      if stack.length < b.toNat + 1 then
        (some (if a.toNat < stack.length then stack.set a.toNat .top else stack), st)
      else (some (swapAt stack a.toNat b.toNat), st)
  else if stack.length < d.stackIo.1 then (none, st)
  else
    let r := tryFold code limit st d d.stackIo.1 d.stackIo.2 stack
    (some (match r.1 with
      | some w => .const w :: stack.drop d.stackIo.1
      | none => List.replicate d.stackIo.2 .top ++ stack.drop d.stackIo.1), r.2)

/-- SWAP/SWAPN/EXCHANGE (block_analysis.rs:1200). -/
def isSwapLike (o : UInt8) : Bool := (op.SWAP1 ≤ o && o ≤ op.SWAP16) || o == op.SWAPN || o == op.EXCHANGE

/-- One iteration of `interpret_block` (block_analysis.rs:1065-1209), without the test-only opcode. -/
def interpInst (code : Code) (limit : Nat) (st : AIState) (i : Nat) (d : InstData)
    (stack : List AbsValue) : Option (List AbsValue) × AIState :=
  if d.flags.deadCode then (some stack, st)
  else
    let st := if 0 < d.stackIo.1 then
        { st with inputs := fun j => if j = i then (stack.take d.stackIo.1).reverse else st.inputs j }
      else st
    let r := interpOp code limit st i d stack
    match r.1 with
    | none => (none, r.2)
    | some stack' =>
      (some stack',
        if 0 < d.stackIo.2 ∧ ¬ isSwapLike d.opcode then
          { r.2 with outputs := fun j => if j = i then stack'.head? else r.2.outputs j }
        else r.2)

/-- `interpret_block` (block_analysis.rs:1060-1212) on numbered instructions. -/
def interpBlock (code : Code) (limit : Nat) : List (Nat × InstData) → AIState → List AbsValue →
    Option (List AbsValue) × AIState
  | [], st, stack => (some stack, st)
  | (i, d) :: rest, st, stack =>
    let r := interpInst code limit st i d stack
    match r.1 with
    | none => (none, r.2)
    | some stack' => interpBlock code limit rest r.2 stack'

/-- `const_operand` (bytecode/mod.rs:679-686): operand `n` (0 is the top) recorded as constant. -/
def AIState.constOperand (st : AIState) (i n : Nat) : Option Word :=
  ((st.inputs i).reverse[n]?).bind AbsValue.asConst

/-- `const_output` (bytecode/mod.rs:689-692). -/
def AIState.constOutput (st : AIState) (i : Nat) : Option Word :=
  (st.outputs i).bind AbsValue.asConst

end Verif
