import Verif.Lemmas.WholeMemRun
/-!
# C56: whole compiled programs keep the EVM's memory

Along an execution of the bytecode, the code of the executed instructions, given the operands of the execution (that it
computes them is C54), reads and writes the memory exactly as the EVM: no access is out of bounds, whatever byte order
the machine has and wherever the memory moves when it grows, MLOAD and MSIZE read what the EVM reads, and the memory is
the EVM's after every instruction.

The theorems are partial: the executions are those that never have more than 64 words on the stack at a JUMPDEST or
right after a JUMPI (`shallow`) and that pay for their memory, deduplication is excluded, and no LOG1..LOG4 of the
program has a last topic that the analyses know to be a 64-bit number; with one, the claim is false
(`C56_memory_fails`).
-/

namespace Verif
open Spec

/-- C56, full statement. -/
def C56_memory : Prop :=
  ∀ (g : UInt8 → BitVec 16) (spec : SpecId) (limit : Nat) (bytes : List UInt8) (o : WOpts) (C : Compiled),
    compileBytes o g spec limit bytes = some C → bytes.length ≤ 2 ^ 31 →
    ∀ fuel tbl, C.memTable fuel = some tbl → ∀ W : MemWorld, KeepsSize W.wr →
    ∀ k i c m ld tr,
      MemRun (parse g spec bytes).toCode (parse g spec bytes).toProg.insts W.wr always k i c m ld tr →
      ∃ cx, C.memAlong tbl W tr = some (cx, ld) ∧ cx.bytes = m

section forward
variable {g : UInt8 → BitVec 16} {spec : SpecId} {limit : Nat} {bytes : List UInt8} {o : WOpts} {C : Compiled}
  (hC : compileBytes o g spec limit bytes = some C) (hlen : bytes.length ≤ 2 ^ 31)
  (hlog : ∀ (i : Nat) (d : InstData), C.prog.insts[i]? = some d → NoSmallTopic C.ai (i, d))
  {fuel : Nat} {tbl : List (Nat × MemSection)} (ht : C.memTable fuel = some tbl)
  {W : MemWorld} (hw : KeepsSize W.wr) {k i : Nat} {c : List Word} {m : List UInt8} {ld : List (Nat × Word)}
  {tr : List (Nat × List Word)} {d : InstData}
  (hr : MemRun (parse g spec bytes).toCode (parse g spec bytes).toProg.insts W.wr
    (shallow (parse g spec bytes).toProg.insts) k i c m ld tr)
include hC hlen hlog ht hw hr

/-- C56: after any execution the compiled program's memory is the EVM's, and it read the same words. The context's copy
of the memory's address and size is right as well. -/
theorem C56_memory_partial :
    ∃ cx, C.memAlong tbl W tr = some (cx, ld) ∧ cx.bytes = m ∧ cx.memBase = cx.base ∧ cx.memLen = m.length := by
  obtain ⟨G, hcode⟩ := goodC_of hC hlen
  rw [← hcode] at hr
  obtain ⟨cx, h⟩ := G.memTrack (goodM_of hC hlen) ht hlog hw hr
  exact ⟨cx, h.along, h.good.bytes, h.good.base, h.good.len⟩

/-- C56, the next instruction, which may be one that ends the execution, as RETURN and REVERT: it has the EVM's
effect on the memory, from which its result is taken. -/
theorem C56_next_partial (hd : (parse g spec bytes).toProg.insts[i]? = some d)
    (hoff : d.flags.disabled = false ∧ d.flags.unknown = false) (hin : d.stackIo.1 ≤ c.length)
    (ha : Affordable d.opcode.toNat (c.take d.stackIo.1)) :
    ∃ cx cx', C.memAlong tbl W tr = some (cx, ld) ∧ cx.bytes = m ∧
      C.memInst tbl W k i (c.take d.stackIo.1) cx = some (cx', memAnswer d.opcode.toNat (c.take d.stackIo.1) m) ∧
      cx'.bytes = memAfter W.wr k i d.opcode.toNat (c.take d.stackIo.1) m := by
  obtain ⟨G, hcode⟩ := goodC_of hC hlen
  rw [← hcode] at hr
  obtain ⟨cx, h⟩ := G.memTrack (goodM_of hC hlen) ht hlog hw hr
  obtain ⟨d', hd', _⟩ := G.sound.live i c hr.reach
  have he := G.sound.ev.inst _ _ _ hd hd'
  rw [← he.op, ← he.io] at ha ⊢
  rw [← he.io] at hin
  have hoff' : (d'.flags.disabled || d'.flags.unknown) = false := by rw [he.dis, he.unk, hoff.1, hoff.2]; rfl
  obtain ⟨cx', e1, e2, _⟩ := G.memNext (goodM_of hC hlen) ht hlog hw h hr.reach hd' hoff' hin ha
  exact ⟨cx, cx', h.along, h.good.bytes, e1, e2.bytes⟩

end forward

/-- The memory analysis of a compiled program always ends. -/
theorem C56_table (C : Compiled) : ∃ fuel tbl, C.memTable fuel = some tbl := by
  obtain ⟨fuel, states, h, _⟩ := C22_terminates C.ai C.prog.memBlocks (by
    intro mb hmb s hs
    unfold Prog.memBlocks at hmb ⊢
    obtain ⟨x, _, rfl⟩ := List.mem_map.1 hmb
    rw [List.length_map]
    exact succs_lt hs)
  exact ⟨fuel, _, by unfold Compiled.memTable; rw [h]; rfl⟩

/-! ## Examples -/

namespace WholeMemExample

def gas (_ : UInt8) : BitVec 16 := 3

/-- Memory that moves whenever it grows, on a little-endian machine; KECCAK256, LOG and calls write nothing. -/
def world : MemWorld := { le := true, mv := fun n => 4096 * n, calls := fun _ => true, wr := fun _ _ _ m => m }

/-- The same on a big-endian machine; copies and calls overwrite the first byte. -/
def world2 : MemWorld :=
  { le := false, mv := fun n => 7 + 100 * n, calls := fun _ => false
    wr := fun _ _ _ m => match m with | [] => [] | _ :: l => 0xee :: l }

theorem world_keeps : KeepsSize world.wr := fun _ _ _ _ => rfl

theorem world2_keeps : KeepsSize world2.wr := fun _ _ _ m => by cases m <;> rfl

/-- Answers `ans k` to the `k`-th instruction. -/
def answers (ans : Nat → Word) (insts : List InstData) : Env (List Word) := fun k i _ =>
  match insts[i]? with
  | none => ([], none)
  | some d => (List.replicate d.stackIo.2 (ans k), none)

theorem answers_len (ans : Nat → Word) (insts : List InstData) (k i : Nat) (d : InstData) (args : List Word)
    (h : insts[i]? = some d) : (answers ans insts k i args).1.length = d.stackIo.2 := by
  unfold answers
  rw [h]
  simp

/-- `PUSH2 0x1234; PUSH0; MSTORE; PUSH1 0x1f; MLOAD; POP; MSIZE; POP; PUSH1 0xab; CALLDATASIZE; MSTORE8; STOP`:
a direct resize, a checked access, and an access at an unknown offset. -/
def prog1 : List UInt8 :=
  [0x61, 0x12, 0x34, 0x5f, 0x52, 0x60, 0x1f, 0x51, 0x50, 0x59, 0x50, 0x60, 0xab, 0x36, 0x53, 0x00]

/-- Two copies of CALLDATA and of memory, a hash and a loop:
`PUSH1 40; PUSH0; PUSH0; CALLDATACOPY; JUMPDEST; PUSH1 3; PUSH0; PUSH1 35; MCOPY; PUSH1 32; PUSH1 20; KECCAK256; POP;
PUSH0; MLOAD; PUSH1 5; JUMP`. -/
def prog2 : List UInt8 :=
  [0x60, 40, 0x5f, 0x5f, 0x37, 0x5b, 0x60, 3, 0x5f, 0x60, 35, 0x5e, 0x60, 32, 0x60, 20, 0x20, 0x50, 0x5f, 0x51, 0x60,
    5, 0x56]

theorem shallow_cap (insts : List InstData) : ∀ i c, c.length ≤ 64 → shallow insts i c := fun _ _ h _ => h

/-- The program with the results of its analysis. -/
theorem compiled (o : WOpts) {bytes : List UInt8}
    (h : ((compileBytes o gas SpecId.CANCUN 1000 bytes).bind fun C => C.memTable 100).isSome = true) :
    ∃ C tbl, compileBytes o gas SpecId.CANCUN 1000 bytes = some C ∧ C.memTable 100 = some tbl := by
  obtain ⟨tbl, h⟩ := Option.isSome_iff_exists.1 h
  obtain ⟨C, h1, h2⟩ := Option.bind_eq_some_iff.1 h
  exact ⟨C, tbl, h1, h2⟩

theorem no_logs {o : WOpts} {bytes : List UInt8} {C : Compiled} (hC : compileBytes o gas SpecId.CANCUN 1000 bytes = some C)
    (h : ((analyzeBytes gas SpecId.CANCUN 1000 bytes).1.insts.all fun d =>
      !(decide (0xa1 ≤ d.opcode.toNat) && decide (d.opcode.toNat ≤ 0xa4))) = true) :
    ∀ (i : Nat) (d : InstData), C.prog.insts[i]? = some d → NoSmallTopic C.ai (i, d) := by
  intro i d hd n h1 h2 h3
  rw [compile_prog hC] at hd
  have := List.all_eq_true.1 h d (List.mem_of_getElem? hd)
  simp only [Bool.not_eq_true', Bool.and_eq_false_iff, decide_eq_false_iff_not] at this
  simp only at h3
  omega

/-- After eleven instructions of `prog1` the memory has 64 bytes, and the words read are `0x3400..00` and 64. -/
example : ∃ (C : Compiled) (tbl : List (Nat × MemSection)) (cx : MCx),
    compileBytes { dse := true, inspect := false } gas SpecId.CANCUN 1000 prog1 = some C ∧
    C.memTable 100 = some tbl ∧
    C.memAlong tbl world [(10, [0, 0xab]), (9, []), (8, []), (7, [64]), (6, []), (5, [BitVec.ofNat 256 (0x34 <<< 248)]),
      (4, [0x1f]), (3, []), (2, [0, 0x1234]), (1, []), (0, [])] =
      some (cx, [(6, 64), (4, BitVec.ofNat 256 (0x34 <<< 248))]) ∧
    cx.bytes = [0xab] ++ List.replicate 29 0 ++ [0x12, 0x34] ++ List.replicate 32 0 := by
  obtain ⟨C, tbl, hC, ht⟩ := compiled { dse := true, inspect := false } (bytes := prog1) (by decide +kernel)
  have hev : (memEval 64 (parse gas SpecId.CANCUN prog1).toCode (parse gas SpecId.CANCUN prog1).toProg.insts
      (answers (fun k => if k = 4 then BitVec.ofNat 256 (0x34 <<< 248) else if k = 6 then 64 else 0)
        (parse gas SpecId.CANCUN prog1).toProg.insts) world.wr 11).map (fun s => ((s.2.2.1, s.2.2.2.1), s.2.2.2.2)) =
      some ((([0xab] ++ List.replicate 29 0 ++ [0x12, 0x34] ++ List.replicate 32 0 : List UInt8),
        [(6, 64), (4, BitVec.ofNat 256 (0x34 <<< 248))]),
        [(10, [0, 0xab]), (9, []), (8, []), (7, [64]), (6, []), (5, [BitVec.ofNat 256 (0x34 <<< 248)]),
          (4, [0x1f]), (3, []), (2, [0, 0x1234]), (1, []), (0, [])]) := by decide +kernel
  obtain ⟨⟨i, c, m, ld, tr⟩, hev, he⟩ := Option.map_eq_some_iff.1 hev
  simp only [Prod.mk.injEq] at he
  obtain ⟨⟨rfl, rfl⟩, rfl⟩ := he
  obtain ⟨cx, h1, h2, _⟩ := C56_memory_partial hC (by decide) (no_logs hC (by decide +kernel)) ht world_keeps
    (demo_mem_run (cap := 64) (by decide) (answers_len _ _) (shallow_cap _) hev)
  exact ⟨C, tbl, cx, hC, ht, h1, h2⟩

/-- Two rounds of `prog2`. -/
example : ∃ (C : Compiled) (tbl : List (Nat × MemSection)) (cx : MCx) (tr : List (Nat × List Word)),
    compileBytes { dse := true, inspect := false } gas SpecId.CANCUN 1000 prog2 = some C ∧
    C.memTable 100 = some tbl ∧ tr.length = 30 ∧
    C.memAlong tbl world2 tr = some (cx, [(27, BitVec.ofNat 256 (0xee <<< 248)), (14, BitVec.ofNat 256 (0xee <<< 248))]) ∧
    cx.bytes = 0xee :: List.replicate 63 0 := by
  obtain ⟨C, tbl, hC, ht⟩ := compiled { dse := true, inspect := false } (bytes := prog2) (by decide +kernel)
  have hev : ((memEval 64 (parse gas SpecId.CANCUN prog2).toCode (parse gas SpecId.CANCUN prog2).toProg.insts
      (answers (fun k => if k = 14 ∨ k = 27 then BitVec.ofNat 256 (0xee <<< 248) else 0) (parse gas SpecId.CANCUN prog2).toProg.insts) world2.wr 30).map fun s => ((s.2.2.1, s.2.2.2.1), s.2.2.2.2.length)) =
      some (((0xee :: List.replicate 63 0 : List UInt8), [(27, BitVec.ofNat 256 (0xee <<< 248)), (14, BitVec.ofNat 256 (0xee <<< 248))]), 30) := by decide +kernel
  obtain ⟨⟨i, c, m, ld, tr⟩, hev, he⟩ := Option.map_eq_some_iff.1 hev
  simp only [Prod.mk.injEq] at he
  obtain ⟨⟨rfl, rfl⟩, htr⟩ := he
  obtain ⟨cx, h1, h2, _⟩ := C56_memory_partial hC (by decide) (no_logs hC (by decide +kernel)) ht world2_keeps
    (demo_mem_run (cap := 64) (by decide) (answers_len _ _) (shallow_cap _) hev)
  exact ⟨C, tbl, cx, tr, hC, ht, htr, h1, h2⟩

/-! ## The counterexample -/

/-- `PUSH1 1; PUSH0; MSTORE; PUSH0; PUSH1 32; PUSH2 0x1000; LOG1; PUSH1 2; PUSH0; MSTORE; STOP`. -/
def staleBase : List UInt8 :=
  [0x60, 1, 0x5f, 0x52, 0x5f, 0x60, 0x20, 0x61, 0x10, 0x00, 0xa1, 0x60, 2, 0x5f, 0x52, 0x00]

end WholeMemExample

open WholeMemExample in
/-- The full statement is false: in `staleBase` the LOG1 with topic zero is taken for an access of length zero and
so for covered, and the register is not forgotten although the builtin moves the memory; the store after it goes to
where the memory was. -/
theorem C56_memory_fails : ¬ C56_memory := by
  intro h
  obtain ⟨C, tbl, hC, ht⟩ := compiled { dse := true, inspect := false } (bytes := staleBase) (by decide +kernel)
  have hev : ((memEval 64 (parse gas SpecId.CANCUN staleBase).toCode (parse gas SpecId.CANCUN staleBase).toProg.insts
      (answers (fun _ => 0) (parse gas SpecId.CANCUN staleBase).toProg.insts) world.wr 10).map fun s => s.2.2.2.2) =
      some ([(0, []), (1, []), (2, [0, 1]), (3, []), (4, []), (5, []), (6, [0x1000, 0x20, 0]), (7, []), (8, []),
        (9, [0, 2])] : List (Nat × List Word)).reverse := by decide +kernel
  obtain ⟨⟨i, c, m, ld, tr⟩, hev, rfl⟩ := Option.map_eq_some_iff.1 hev
  obtain ⟨cx, h1, _⟩ := h gas SpecId.CANCUN 1000 staleBase _ C hC (by decide) 100 tbl ht world world_keeps 10 i c m ld
    _ (demo_mem_run (cap := 64) (by decide) (answers_len _ _) (fun _ _ _ => trivial) hev)
  have hnone : ((compileBytes { dse := true, inspect := false } gas SpecId.CANCUN 1000 staleBase).bind fun C =>
      (C.memTable 100).bind fun tbl => C.memAlong tbl world ([(0, []), (1, []), (2, [0, 1]), (3, []), (4, []),
        (5, []), (6, [0x1000, 0x20, 0]), (7, []), (8, []), (9, [0, 2])] : List (Nat × List Word)).reverse) = none := by
    decide +kernel
  rw [hC, Option.bind_some, ht, Option.bind_some] at hnone
  rw [hnone] at h1
  cases h1

end Verif
