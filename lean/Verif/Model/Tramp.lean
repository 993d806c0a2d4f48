/-!
# Entry and exit trampolines

Models the assembly of `crates/revmc-context/src/arch/x86_64.rs` and `aarch64.rs`: `revmc_entry`, through which
compiled code is called, and `revmc_exit`, through which a builtin leaves it.

Machine words are naturals (below `2^64`), memory is byte-addressed and little-endian. A stack pointer
moved below zero faults (`none`); addresses above `2^64` do not occur under the assumptions of the
theorems. Only the instructions that appear in the two files are modelled.
-/

namespace Verif.Tramp

/-- Memory: the byte at each address. -/
abbrev Mem := Nat → Nat

/-- An eight-byte load. -/
def Mem.load64 (m : Mem) (a : Nat) : Nat :=
  m a + m (a + 1) * 2 ^ 8 + m (a + 2) * 2 ^ 16 + m (a + 3) * 2 ^ 24 + m (a + 4) * 2 ^ 32 +
    m (a + 5) * 2 ^ 40 + m (a + 6) * 2 ^ 48 + m (a + 7) * 2 ^ 56

/-- An eight-byte store. -/
def Mem.store64 (m : Mem) (a v : Nat) : Mem := fun x =>
  if a ≤ x ∧ x < a + 8 then v / 2 ^ (8 * (x - a)) % 256 else m x

/-- Offsets of the two fields of `EvmContext` used (arch/mod.rs:13-17). -/
structure Offsets where
  exitResult : Nat
  exitSp : Nat
deriving DecidableEq, Repr

/-! ## x86_64 -/

namespace X86

/-- The sixteen general-purpose registers. -/
inductive Reg
  | rax | rbx | rcx | rdx | rsi | rdi | rbp | rsp | r8 | r9 | r10 | r11 | r12 | r13 | r14 | r15
deriving DecidableEq, Repr

/-- The instructions used in x86_64.rs:21-45, 54-69. -/
inductive Instr
  | push (r : Reg)
  | pop (r : Reg)
  /-- `mov [base + off], src` -/
  | store (base : Reg) (off : Nat) (src : Reg)
  /-- `mov dst, [base + off]` -/
  | load (dst base : Reg) (off : Nat)
  /-- `movzx dst, byte ptr [base + off]` -/
  | loadByte (dst base : Reg) (off : Nat)
  | subRsp (n : Nat)
  | addRsp (n : Nat)
deriving DecidableEq, Repr

/-- Registers and memory. -/
structure St where
  reg : Reg → Nat
  mem : Mem

/-- Register update. -/
def St.set (s : St) (r : Reg) (v : Nat) : St := { s with reg := fun x => if x = r then v else s.reg x }

/-- One instruction (Intel manual; `none` when the stack pointer would pass zero). -/
def step (s : St) : Instr → Option St
  | .push r =>
    if 8 ≤ s.reg .rsp then
      some { (s.set .rsp (s.reg .rsp - 8)) with mem := s.mem.store64 (s.reg .rsp - 8) (s.reg r) }
    else none
  | .pop r => some ((s.set .rsp (s.reg .rsp + 8)).set r (s.mem.load64 (s.reg .rsp)))
  | .store b off src => some { s with mem := s.mem.store64 (s.reg b + off) (s.reg src) }
  | .load d b off => some (s.set d (s.mem.load64 (s.reg b + off)))
  | .loadByte d b off => some (s.set d (s.mem (s.reg b + off)))
  | .subRsp n => if n ≤ s.reg .rsp then some (s.set .rsp (s.reg .rsp - n)) else none
  | .addRsp n => some (s.set .rsp (s.reg .rsp + n))

/-- Straight-line code. -/
def run (s : St) : List Instr → Option St
  | [] => some s
  | i :: is => (step s i).bind fun s => run s is

/-- `ret`: the address jumped to, and the state there. -/
def ret (s : St) : Nat × St := (s.mem.load64 (s.reg .rsp), s.set .rsp (s.reg .rsp + 8))

/-- `call` with the given return address: the state on entry of the callee. -/
def call (s : St) (back : Nat) : Option St :=
  if 8 ≤ s.reg .rsp then
    some { (s.set .rsp (s.reg .rsp - 8)) with mem := s.mem.store64 (s.reg .rsp - 8) back }
  else none

/-- `revmc_entry` up to `call rcx` (x86_64.rs:22-33). -/
def entryCode (o : Offsets) : List Instr :=
  [.push .rbp, .push .rbx, .push .r12, .push .r13, .push .r14, .push .r15,
   .store .rdi o.exitSp .rsp, .subRsp 8]

/-- `revmc_entry` after the call, up to `ret` (x86_64.rs:35-42). -/
def leaveCode : List Instr :=
  [.addRsp 8, .pop .r15, .pop .r14, .pop .r13, .pop .r12, .pop .rbx, .pop .rbp]

/-- `revmc_exit` up to `ret` (x86_64.rs:55-65). -/
def exitCode (o : Offsets) : List Instr :=
  [.loadByte .rax .rdi o.exitResult, .load .rsp .rdi o.exitSp,
   .pop .r15, .pop .r14, .pop .r13, .pop .r12, .pop .rbx, .pop .rbp]

/-- `revmc_entry` up to the first instruction of the compiled function; `back` is the address after
`call rcx`. -/
def enter (o : Offsets) (s : St) (back : Nat) : Option St := (run s (entryCode o)).bind (call · back)

/-- The rest of `revmc_entry` after the compiled function returned to `back`. -/
def leave (s : St) : Option (Nat × St) := (run s leaveCode).map ret

/-- `revmc_exit`. -/
def exit (o : Offsets) (s : St) : Option (Nat × St) := (run s (exitCode o)).map ret

end X86

/-! ## AArch64 -/

namespace Arm

/-- General-purpose registers `x0`-`x30`, vector registers (low halves) `d0`-`d31`, and `sp`. -/
inductive Reg
  | x (n : Nat)
  | d (n : Nat)
  | sp
deriving DecidableEq, Repr

/-- The instructions used in aarch64.rs:34-60, 73-91. -/
inductive Instr
  /-- `stp a, b, [sp, #-n]!` -/
  | stpPre (a b : Reg) (n : Nat)
  /-- `stp a, b, [sp, #off]` -/
  | stp (a b : Reg) (off : Nat)
  /-- `ldp a, b, [sp, #off]` -/
  | ldp (a b : Reg) (off : Nat)
  /-- `ldp a, b, [sp], #n` -/
  | ldpPost (a b : Reg) (n : Nat)
  /-- `mov dst, src` -/
  | mov (dst src : Reg)
  /-- `str src, [base, off]` -/
  | str (src base : Reg) (off : Nat)
  /-- `ldr dst, [base, off]` -/
  | ldr (dst base : Reg) (off : Nat)
  /-- `ldrb dst, [base, off]` -/
  | ldrb (dst base : Reg) (off : Nat)
deriving DecidableEq, Repr

/-- Registers and memory. -/
structure St where
  reg : Reg → Nat
  mem : Mem

/-- Register update. -/
def St.set (s : St) (r : Reg) (v : Nat) : St := { s with reg := fun x => if x = r then v else s.reg x }

/-- One instruction (Arm manual; `none` when the stack pointer would pass zero). -/
def step (s : St) : Instr → Option St
  | .stpPre a b n =>
    if n ≤ s.reg .sp then
      some { (s.set .sp (s.reg .sp - n)) with
        mem := (s.mem.store64 (s.reg .sp - n) (s.reg a)).store64 (s.reg .sp - n + 8) (s.reg b) }
    else none
  | .stp a b off => some { s with
      mem := (s.mem.store64 (s.reg .sp + off) (s.reg a)).store64 (s.reg .sp + off + 8) (s.reg b) }
  | .ldp a b off =>
    some ((s.set a (s.mem.load64 (s.reg .sp + off))).set b (s.mem.load64 (s.reg .sp + off + 8)))
  | .ldpPost a b n =>
    some (((s.set a (s.mem.load64 (s.reg .sp))).set b (s.mem.load64 (s.reg .sp + 8))).set .sp
      (s.reg .sp + n))
  | .mov d r => some (s.set d (s.reg r))
  | .str r b off => some { s with mem := s.mem.store64 (s.reg b + off) (s.reg r) }
  | .ldr d b off => some (s.set d (s.mem.load64 (s.reg b + off)))
  | .ldrb d b off => some (s.set d (s.mem (s.reg b + off)))

/-- Straight-line code. -/
def run (s : St) : List Instr → Option St
  | [] => some s
  | i :: is => (step s i).bind fun s => run s is

/-- `ret`: jump to `x30`. -/
def ret (s : St) : Nat × St := (s.reg (.x 30), s)

/-- `revmc_entry` up to `blr x3` (aarch64.rs:35-48). -/
def entryCode (o : Offsets) : List Instr :=
  [.stpPre (.x 29) (.x 30) 160, .stp (.x 19) (.x 20) 16, .stp (.x 21) (.x 22) 32,
   .stp (.x 23) (.x 24) 48, .stp (.x 25) (.x 26) 64, .stp (.x 27) (.x 28) 80,
   .stp (.d 8) (.d 9) 96, .stp (.d 10) (.d 11) 112, .stp (.d 12) (.d 13) 128,
   .stp (.d 14) (.d 15) 144, .mov (.x 9) .sp, .str (.x 9) (.x 0) o.exitSp]

/-- The restoring sequence, the same in `revmc_entry` (aarch64.rs:50-59) and `revmc_exit`
(aarch64.rs:79-88). -/
def restoreCode : List Instr :=
  [.ldp (.d 14) (.d 15) 144, .ldp (.d 12) (.d 13) 128, .ldp (.d 10) (.d 11) 112,
   .ldp (.d 8) (.d 9) 96, .ldp (.x 27) (.x 28) 80, .ldp (.x 25) (.x 26) 64,
   .ldp (.x 23) (.x 24) 48, .ldp (.x 21) (.x 22) 32, .ldp (.x 19) (.x 20) 16,
   .ldpPost (.x 29) (.x 30) 160]

/-- `revmc_exit` up to `ret` (aarch64.rs:74-88). -/
def exitCode (o : Offsets) : List Instr :=
  [.ldr (.x 9) (.x 0) o.exitSp, .ldrb (.x 0) (.x 0) o.exitResult, .mov .sp (.x 9)] ++ restoreCode

/-- `revmc_entry` up to the first instruction of the compiled function: `blr` sets the link
register to `back`. -/
def enter (o : Offsets) (s : St) (back : Nat) : Option St :=
  (run s (entryCode o)).map (·.set (.x 30) back)

/-- The rest of `revmc_entry` after the compiled function returned to `back`. -/
def leave (s : St) : Option (Nat × St) := (run s restoreCode).map ret

/-- `revmc_exit`. -/
def exit (o : Offsets) (s : St) : Option (Nat × St) := (run s (exitCode o)).map ret

end Arm

end Verif.Tramp
