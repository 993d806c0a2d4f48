import Verif.Model.Tramp
/-!
# What calling through the trampolines must look like to the caller

The calling conventions: which registers a callee must preserve, and what compiled code may do.
-/

namespace Verif.Tramp.Spec

open Verif.Tramp

/-- Two memories agree on `[lo, hi)`. -/
def SameOn (m m' : Mem) (lo hi : Nat) : Prop := ∀ a, lo ≤ a → a < hi → m' a = m a

/-- Callee-saved registers of the System V AMD64 ABI, without the stack pointer. -/
def x86Saved : List X86.Reg := [.rbx, .rbp, .r12, .r13, .r14, .r15]

/-- A state in which `revmc_entry` is called on x86_64: words are words, the stack is aligned as at
the entry of a function, has room, and the context lies apart from the part of the stack about to be
used. -/
structure X86Start (o : Offsets) (s : X86.St) : Prop where
  word : ∀ r, s.reg r < 2 ^ 64
  byte : ∀ a, s.mem a < 256
  aligned : s.reg .rsp % 16 = 8
  room : 64 ≤ s.reg .rsp
  apart : s.reg .rdi + o.exitSp + 8 ≤ s.reg .rsp - 64 ∨ s.reg .rsp + 8 ≤ s.reg .rdi + o.exitSp

/-- What the caller of `revmc_entry` may rely on at its return address: control is back there, the
stack pointer is where a `ret` leaves it, and the callee-saved registers have their old values. -/
def X86Back (s : X86.St) (r : Nat × X86.St) : Prop :=
  r.1 = s.mem.load64 (s.reg .rsp) ∧ r.2.reg .rsp = s.reg .rsp + 8 ∧
  ∀ x ∈ x86Saved, r.2.reg x = s.reg x

/-- The compiled function, entered in `e`, has returned in `e'`: the stack pointer is past the return
address and callee-saved registers are kept. Memory of the caller's frame between `lo` and `hi` is
untouched. -/
structure X86Returned (lo hi : Nat) (e e' : X86.St) : Prop where
  rsp : e'.reg .rsp = e.reg .rsp + 8
  saved : ∀ x ∈ x86Saved, e'.reg x = e.reg x
  frame : SameOn e.mem e'.mem lo hi

/-- The compiled function, entered in `e`, is somewhere below calling `revmc_exit` with the same
context, in any state of registers and stack. The caller's frame and the saved stack pointer in the
context are untouched. -/
structure X86Exits (o : Offsets) (lo hi : Nat) (e e' : X86.St) : Prop where
  ctx : e'.reg .rdi = e.reg .rdi
  frame : SameOn e.mem e'.mem lo hi
  sp : SameOn e.mem e'.mem (e.reg .rdi + o.exitSp) (e.reg .rdi + o.exitSp + 8)

/-- Callee-saved registers of AAPCS64: `x19`-`x29` and the low halves of `v8`-`v15`. -/
def armSaved (r : Arm.Reg) : Prop :=
  match r with
  | .x n => 19 ≤ n ∧ n ≤ 29
  | .d n => 8 ≤ n ∧ n ≤ 15
  | .sp => False

/-- A state in which `revmc_entry` is called on AArch64. -/
structure ArmStart (o : Offsets) (s : Arm.St) : Prop where
  word : ∀ r, s.reg r < 2 ^ 64
  byte : ∀ a, s.mem a < 256
  aligned : s.reg .sp % 16 = 0
  room : 160 ≤ s.reg .sp
  apart : s.reg (.x 0) + o.exitSp + 8 ≤ s.reg .sp - 160 ∨ s.reg .sp ≤ s.reg (.x 0) + o.exitSp

/-- What the caller may rely on: control is at the address in the link register, stack pointer and
callee-saved registers have their old values. -/
def ArmBack (s : Arm.St) (r : Nat × Arm.St) : Prop :=
  r.1 = s.reg (.x 30) ∧ r.2.reg .sp = s.reg .sp ∧ ∀ x, armSaved x → r.2.reg x = s.reg x

/-- The compiled function has returned (see `X86Returned`). -/
structure ArmReturned (lo hi : Nat) (e e' : Arm.St) : Prop where
  sp : e'.reg .sp = e.reg .sp
  saved : ∀ x, armSaved x → e'.reg x = e.reg x
  frame : SameOn e.mem e'.mem lo hi

/-- The compiled function is calling `revmc_exit` (see `X86Exits`). -/
structure ArmExits (o : Offsets) (lo hi : Nat) (e e' : Arm.St) : Prop where
  ctx : e'.reg (.x 0) = e.reg (.x 0)
  frame : SameOn e.mem e'.mem lo hi
  sp : SameOn e.mem e'.mem (e.reg (.x 0) + o.exitSp) (e.reg (.x 0) + o.exitSp + 8)

end Verif.Tramp.Spec
