import Verif.Lemmas.FrameRuns
/-!
# C57: memory and data builtins across nested frames

The builtins behind KECCAK256, CALLDATALOAD, CALLDATACOPY, CODECOPY, EXTCODECOPY, RETURNDATACOPY, MLOAD, MSTORE,
MSTORE8, MCOPY, LOG0..LOG4, RETURN, REVERT, the calls and the creations, on one buffer that all frames share and with
call data that is only a range of the caller's memory, cannot be told from frames that own their memory and data.

Assumed: the gas is at most `2^55` (above, revm's saturating memory cost is not the Yellow Paper's, `C57_bound`), and
data given from outside is shorter than `2^63` bytes.
-/

namespace Verif
open Spec Frames

/-- C57: a transaction's run of nested frames ends as the EVM's, with the same data, gas and logs, and never panics or
accesses memory out of bounds. -/
theorem C57_frames (hash : List UInt8 → Word) (R : Rules) (act : Act) (hfit : act.Fits) (gas : Nat)
    (hgas : gas ≤ 2 ^ 55) (input code : List UInt8) (static : Bool) (hi : input.length < 2 ^ 63)
    (hc : code.length < 2 ^ 63) :
    outcome (run hash R act (Cx.first gas input code static)) =
      some (runFrame hash R act
        { gas := gas, mem := [], input := input, code := code, ret := [], static := static, logs := [] }) := by
  have hw0 : wordGas 0 = 0 := by decide
  have hw : WF (Cx.first gas input code static) := by
    refine ⟨rfl, hw0.symm, ?_, ?_, ?_, hc, by show 0 < 2 ^ 63; decide⟩
    · show 3 * 0 + 32 * (gas + wordGas 0) ≤ 2 ^ 60
      omega
    · intro bs h
      cases h
      exact hi
    · intro a b h
      cases h
  have h := run_refines hash R act hw hfit
  have hv : view (Cx.first gas input code static) =
      { gas := gas, mem := [], input := input, code := code, ret := [], static := static, logs := [] } := rfl
  rw [hv] at h
  revert h
  generalize runFrame hash R act _ = spec
  cases run hash R act (Cx.first gas input code static) with
  | ok d t => exact fun h => congrArg some h.1.symm
  | error e t =>
    cases e with
    | err e => exact fun h => congrArg some h.1.symm
    | panic => exact fun h => h.elim

/-- C57, one instruction in any context reached by such runs (`WF`): it has the EVM's result, effect and cost, fails
exactly when the EVM does, and leaves the part of the buffer alone that belongs to other frames. -/
theorem C57_step (hash : List UInt8 → Word) (o : Nat) (args : List Word) (acct : Option (List UInt8 × Nat)) (s : Cx)
    (hs : WF s) (ho : (o, args.length) ∈ dataOps) (ha : ∀ p, acct = some p → p.1.length < 2 ^ 63) :
    match exec hash o args acct s with
    | .ok w t => step hash o args acct (view s) = some (view t, w) ∧ WF t ∧ t.mem.cp = s.mem.cp ∧
        t.mem.buf.take s.mem.cp = s.mem.buf.take s.mem.cp
    | .error (.err _) t => step hash o args acct (view s) = none ∧ t.mem.cp = s.mem.cp ∧
        t.mem.buf.take s.mem.cp = s.mem.buf.take s.mem.cp
    | .error .panic _ => False := by
  have h := exec_refines hs hash o args acct ho ha
  unfold Refines Sat at h
  split
  · rename_i hx; rw [hx] at h; exact ⟨h.1, h.2.1, h.2.2.1.cp, h.2.2.1.pre⟩
  · rename_i hx; rw [hx] at h; exact ⟨h.1, h.2.1.cp, h.2.1.pre⟩
  · rename_i hx; rw [hx] at h; exact h

/-- C57: calls give the callee the frame the EVM gives it; its call data, a range of the shared buffer, is the
caller's memory. -/
theorem C57_call (R : Rules) (o : Nat) (args : List Word) (dyn : Option Nat) (code : List UInt8) (s : Cx) (hs : WF s)
    (ho : o ∈ [0xf1, 0xf2, 0xf4, 0xfa]) (hc : code.length < 2 ^ 63) :
    match call R o args dyn code s with
    | .ok r t => callEnter R o args dyn code (view s) = some (view t, view (t.child r)) ∧ WF t ∧ WF (t.child r)
    | .error (.err _) _ => callEnter R o args dyn code (view s) = none
    | .error .panic _ => False := by
  have h := call_refines hs R o args dyn code (by simpa using ho) hc
  unfold Sat at h
  split
  · rename_i hx; rw [hx] at h; exact ⟨h.1.spec, h.1.wf, h.1.child⟩
  · rename_i hx; rw [hx] at h; exact h.1
  · rename_i hx; rw [hx] at h; exact h

/-- C57: creations give the callee the frame the EVM gives it. -/
theorem C57_create (R : Rules) (o : Nat) (args : List Word) (s : Cx) (hs : WF s) (ho : o ∈ [0xf0, 0xf5]) :
    match create R o args s with
    | .ok r t => createEnter R o args (view s) = some (view t, view (t.child r)) ∧ WF t ∧ WF (t.child r)
    | .error (.err _) _ => createEnter R o args (view s) = none
    | .error .panic _ => False := by
  have h := create_refines hs R o args (by simpa using ho)
  unfold Sat at h
  split
  · rename_i hx; rw [hx] at h; exact ⟨h.1.spec, h.1.wf, h.1.child⟩
  · rename_i hx; rw [hx] at h; exact h.1
  · rename_i hx; rw [hx] at h; exact h

/-- C57: whatever a frame and the frames it calls do, and however it ends, the memory of the frames below is
unchanged. -/
theorem C57_isolation (hash : List UInt8 → Word) (R : Rules) (act : Act) (hfit : act.Fits) (s : Cx)
    (r : Request) (hr : WF (s.child r)) :
    match run hash R act (s.child r) with
    | .ok _ t => s.resume t = { s with logs := t.logs }
    | .error (.err _) t => s.resume t = { s with logs := t.logs }
    | .error .panic _ => False := by
  have h := run_refines hash R act hr hfit
  unfold Ran Sat at h
  split
  · rename_i hx; rw [hx] at h; exact resume_eq h.2.1
  · rename_i hx; rw [hx] at h; exact resume_eq h.2
  · rename_i hx; rw [hx] at h; exact h

/-- C57: the variants for operands known at compile time do what the general builtins do. -/
theorem C57_constants (hash : List UInt8 → Word) (off len : BitVec 64) (s : Cx) :
    doReturnCC off len s = doReturn (BitVec.ofNat 256 off.toNat) (BitVec.ofNat 256 len.toNat) s ∧
    keccakCC hash off len s = exec hash 0x20 [BitVec.ofNat 256 off.toNat, BitVec.ofNat 256 len.toNat] none s := by
  refine ⟨by rw [doReturnCC_eq], ?_⟩
  rw [keccakCC_eq]; rfl

/-! ## Concrete cases -/

namespace C57Example

/-- A hash for the examples. -/
def hash (bs : List UInt8) : Word := BitVec.ofNat 256 (bs.foldl (fun h b => 31 * h + b.toNat) 7)

def rules : Rules := { eip150 := true, eip3860 := true, maxInit := 49152 }

/-- The callee: loads its call data, writes it plus one to its own memory, beyond what the caller uses, logs it, and
returns it. -/
def callee : Act :=
  .step 0x35 [0] none fun w _ =>
    .step 0x52 [64, w + 1] none fun _ _ =>
      .step 0xa1 [64, 32, 0xbeef] none fun _ _ =>
        .ret false 64 32

/-- The caller: writes a word, calls with it as call data, and returns it together with the answer, both read from
memory. -/
def caller : Act :=
  .step 0x52 [3, 0x1234] none fun _ _ =>
    .call 0xf1 [50000, 0xaa, 1, 3, 32, 40, 32] (some 2500) [0xfe] callee fun ok _ =>
      if ok then
        .step 0x51 [3] none fun w _ =>
          .step 0x51 [40] none fun v _ =>
            .step 0x3e [0, 30, 2] none fun _ _ =>
              .step 0x20 [0, 72] none fun h _ =>
                .step 0x52 [32, w + v + h] none fun _ _ =>
                  .ret true 32 32
      else .fail

theorem caller_fits : caller.Fits := by
  refine ⟨by simp [dataOps], nofun, fun _ _ => ⟨by decide, by decide, ?_, ?_⟩⟩
  · exact ⟨by simp [dataOps], nofun, fun _ _ => ⟨by simp [dataOps], nofun, fun _ _ => ⟨by simp [dataOps], nofun, fun _ _ => trivial⟩⟩⟩
  · intro ok g
    cases ok
    · trivial
    · exact ⟨by simp [dataOps], nofun, fun _ _ => ⟨by simp [dataOps], nofun, fun _ _ => ⟨by simp [dataOps], nofun, fun _ _ =>
        ⟨by simp [dataOps], nofun, fun _ _ => ⟨by simp [dataOps], nofun, fun _ _ => trivial⟩⟩⟩⟩⟩

end C57Example
open C57Example

/-- The call data is read from the caller's memory although the callee has grown the shared buffer, the callee's answer
lands in the caller's memory, and the caller's own word is still there. -/
example : outcome (run hash rules caller (Cx.first 100000 [] [] false)) =
    some (.done true
      [204, 157, 119, 193, 123, 165, 155, 52, 249, 20, 16, 133, 122, 13, 79, 217, 86, 240, 48, 204, 64, 171, 58, 3, 225,
        169, 223, 73, 137, 121, 126, 212] 90130,
      [([0xbeef], List.replicate 30 0 ++ [0x12, 0x35])]) := by decide +kernel

/-- With less gas the run halts, in the EVM as well. -/
example : outcome (run hash rules caller (Cx.first 10000 [] [] false)) =
    some (runFrame hash rules caller
      { gas := 10000, mem := [], input := [], code := [], ret := [], static := false, logs := [] }) :=
  C57_frames hash rules caller caller_fits 10000 (by decide) [] [] false (by decide) (by decide)

/-- A context inside a call: the buffer has 64 bytes of the caller, this frame has one word and call data that is a
range of the caller's memory. -/
def C57Example.inner : Cx :=
  { gas := 1000, words := 1, paid := 3
    mem := { buf := List.replicate 32 7 ++ List.replicate 32 9 ++ List.replicate 32 1, cp := 64 }
    input := .shared 30 34, code := [0xfe], ret := [5], static := false, logs := [] }

theorem C57Example.inner_wf : WF inner :=
  ⟨by decide, by decide, by decide, nofun, by intro a b h; cases h; decide, by decide, by decide⟩

/-- CALLDATACOPY of a range that reaches beyond the call data: copies from below the checkpoint and pads with zeros. -/
example : (match exec hash 0x37 [1, 2, 4] none inner with
      | .ok w t => some (t.mem.buf.take 64 == inner.mem.buf.take 64, w, t.gas)
      | .error .. => none) = some (true, 0, 997) ∧
    step hash 0x37 [1, 2, 4] none (view inner) =
      some ({ view inner with gas := 997, mem := 1 :: 9 :: 9 :: 0 :: 0 :: List.replicate 27 1 }, 0) := by decide +kernel

/-- A STATICCALL from there. -/
example : callEnter rules 0xfa [5000, 0xaa, 0, 2, 30, 4] (some 100) [0xfe] (view inner) =
    some ({ view inner with gas := 14, mem := List.replicate 32 1 ++ List.replicate 32 0 },
      { gas := 883, mem := [], input := [1, 1], code := [0xfe], ret := [], static := true, logs := [] }) := by
  decide +kernel

/-- A creation that cannot be paid, and one that can. -/
example : createEnter rules 0xf5 [0, 31, 2, 0] (view inner) = none ∧
    createEnter rules 0xf5 [0, 31, 2, 0] { view inner with gas := 40000 } =
      some ({ view inner with gas := 124, mem := List.replicate 32 1 ++ List.replicate 32 0 },
        { gas := 7865, mem := [], input := [], code := [1, 0], ret := [], static := false, logs := [] }) := by
  decide +kernel

/-- The bound on the gas is needed: with `2^63` gas, revm's saturating cost lets MLOAD grow the memory beyond what a
buffer can hold. -/
theorem C57_bound :
    outcome (run hash rules (.step 0x51 [2 ^ 63] none fun _ _ => .stop) (Cx.first (2 ^ 63) [] [] false)) = none := by
  decide +kernel

end Verif
