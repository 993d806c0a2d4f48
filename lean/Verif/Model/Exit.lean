import Verif.Model.Dse
/-!
# Leaving the compiled function with stack inspection on

With `inspect_stack` (compiler/mod.rs:360-370) the stack buffer is the caller's, and the caller reads the
length from the argument cell. Modelled: what buffer and length the caller finds after each kind of exit.

Simplified: the status code and the return data are left out (they do not depend on the mode). Failures
inside a builtin leave the function without passing through the return block and are not modelled.
-/

namespace Verif

/-- The ways an instruction ends the call. -/
inductive ExitKind where
  /-- STOP: `build_return_imm`; INVALID: `build_fail` (translate/mod.rs:716, 1157, 1866-1895). -/
  | halt
  /-- RETURN, REVERT (`return_common`, translate/mod.rs:1367-1373) and SELFDESTRUCT (1158-1164). -/
  | common
  /-- RETURN and REVERT with constant operands (`peephole_return`, peephole.rs:319-338). -/
  | constReturn
  deriving DecidableEq, Repr

/-- How instruction `i` ends the call, if it does; `try_peephole` comes first (translate/mod.rs:650-658,
peephole.rs:22-41). -/
def exitKind (st : AIState) (i : Nat) (d : InstData) : Option ExitKind :=
  if d.flags.disabled || d.flags.unknown then none
  else if d.opcode == op.STOP || d.opcode == op.INVALID then some .halt
  else if d.opcode == op.RETURN || d.opcode == op.REVERT then
    if (constMemoryOperands (st.constOperand i 0) (st.constOperand i 1)).isSome then some .constReturn
    else some .common
  else if d.opcode == op.SELFDESTRUCT then some .common
  else none

namespace SCx
variable {E : Type}

/-- What the caller finds after `t` ended the call: the length in its argument cell (`argLen` if nothing
is stored there) and the buffer. `translate_inst` stores the length variable first
(translate/mod.rs:612-619). -/
def exit (k : ExitKind) (argLen : Int) (t : TInst E) (cx : SCx E) : Option (Int × (Int → Word)) :=
  let cx := { cx with lenOff := 0 }
  let newOff := cx.secOff + t.diff
  let cx := if newOff = cx.storedOff then cx
    else { cx with lenVar := cx.startLen + newOff, storedOff := newOff }
  match k with
  -- `build_return` / `build_fail` (translate/mod.rs:1866-1892), then the return block, which saves the
  -- length (translate/mod.rs:451-460).
  | .halt => some (cx.lenVar, cx.materializeLive.mem)
  -- `sync_diverging_stack_effect` (translate/mod.rs:1375-1385), then a builtin that does not return.
  | .common => (sync t (spAfterInputs t cx)).map fun cx => (cx.lenVar, cx.materializeLive.mem)
  -- Neither the pending words nor the length are stored (peephole.rs:319-338).
  | .constReturn => (cx.popIgnore 2).map fun cx => (argLen, cx.mem)

/-- The last section, ending in the instruction that ends the call. -/
def exitSteps (k : ExitKind) (argLen : Int) : List (TInst E) → SCx E → Option (Int × (Int → Word))
  | [], _ => none
  | [t], cx => exit k argLen t cx
  | t :: t' :: ts, cx => (step t cx).bind fun cx => exitSteps k argLen (t' :: ts) cx.relieve

/-- A block whose last instruction ends the call (translate/mod.rs:502-1172). -/
def runExit (k : ExitKind) (argLen : Int) : List (List (TInst E)) → SCx E → Option (Int × (Int → Word))
  | [], _ => none
  | [ts], cx => exitSteps k argLen ts (head ts cx)
  | ts :: ts' :: rest, cx => (runSection ts cx).bind (runExit k argLen (ts' :: rest))

/-- A section's gas check fails after `n` instructions: the check branches straight to the failure block, which
stores no pending word and goes on to the return block (translate/mod.rs:1669-1682, 1820-1845, 433-460). -/
def failCheck (n : Nat) (secs : List (List (TInst E))) (cx : SCx E) : Option (Int × (Int → Word)) :=
  (runPrefix n secs cx).map fun cx => (cx.lenVar, cx.mem)

end SCx
end Verif
