import Verif.Lemmas.WholeEnd
/-!
# C54: a whole compiled program does what the EVM does

`compileBytes` parses, analyses, optionally eliminates dead stores, and translates; `Compiled.run n` executes `n`
blocks of the result on the stack buffer. The EVM executes the parsed instructions one by one (`Spec.Run`), with
any world `env` that answers to environment, memory and call instructions. Observed are the effects on the world
with the operands of their instructions, in order, and at calls and creations the whole stack.

All theorems here are partial: gas is not modelled, deduplication is excluded, and the executions are those that
never have more than 64 words on the stack at a JUMPDEST or right after a JUMPI (`shallow`). Without the last
restriction the claim is false, see `C54_halts_fails`.
-/

namespace Verif
open Spec
variable {F : Type}

/-- The compiled program ends at the instruction that ends the EVM's execution, with the same observations. -/
def EndsAlike (C : Compiled) (o : WOpts) (env : Env F) (clob : Nat → Int → Word) (mem : Int → Word) (k i : Nat)
    (d : InstData) (c : List Word) (tr : List (Obs F)) : Prop :=
  ∃ n cx, C.run env clob mem n = .halted i cx ∧ shown cx.trace = observed env k i d c ++ tr ∧
    cx.lenVar = (c.drop d.stackIo.1).length ∧
    ((o.dse = true → o.inspect = true) → Holds cx (c.drop d.stackIo.1))

/-- C54, full statement for executions that halt. -/
def C54_halts : Prop :=
  ∀ (F : Type) (g : UInt8 → BitVec 16) (spec : SpecId) (limit : Nat) (bytes : List UInt8) (o : WOpts) (C : Compiled),
    compileBytes o g spec limit bytes = some C → bytes.length ≤ 2 ^ 31 →
    ∀ (env : Env F) (clob : Nat → Int → Word) (mem : Int → Word), World (parse g spec bytes).toProg.insts env →
    ∀ k i c tr d, Run (parse g spec bytes).toCode (parse g spec bytes).toProg.insts env always k i c tr →
      (parse g spec bytes).toProg.insts[i]? = some d → Halts d → d.stackIo.1 ≤ c.length →
      EndsAlike C o env clob mem k i d c tr

section forward
variable {g : UInt8 → BitVec 16} {spec : SpecId} {limit : Nat} {bytes : List UInt8} {o : WOpts} {C : Compiled}
  (hC : compileBytes o g spec limit bytes = some C) (hlen : bytes.length ≤ 2 ^ 31)
  {env : Env F} (clob : Nat → Int → Word) (mem : Int → Word) (hw : World (parse g spec bytes).toProg.insts env)
  {k i : Nat} {c : List Word} {tr : List (Obs F)} {d : InstData}
  (hr : Run (parse g spec bytes).toCode (parse g spec bytes).toProg.insts env
    (shallow (parse g spec bytes).toProg.insts) k i c tr)
include hC hlen hw hr

/-- C54, running: whenever the EVM is at the first instruction of a block, the compiled program is there too,
after as many instructions, holding the same stack and with the same observations. -/
theorem C54_enters_partial {b : Nat × Nat} (hb : b ∈ C.prog.blocks) (hi : b.1 = i) :
    ∃ n cx, C.run env clob mem n = .running k i cx ∧ Holds cx c ∧ shown cx.trace = tr := by
  obtain ⟨G, hcode⟩ := goodC_of hC hlen
  rw [← hcode] at hr
  exact G.enters (hw.x C.ai) hr hb hi

/-- C54, halting: where the EVM halts (STOP, RETURN, REVERT, INVALID, SELFDESTRUCT, a disabled or unknown opcode), so
does the compiled program, with the same observations and the same height of the stack; the stack is the EVM's if
it is to be inspected or dead stores are kept. -/
theorem C54_halts_partial (hd : (parse g spec bytes).toProg.insts[i]? = some d) (hh : Halts d)
    (hin : d.stackIo.1 ≤ c.length) : EndsAlike C o env clob mem k i d c tr := by
  obtain ⟨G, hcode⟩ := goodC_of hC hlen
  rw [← hcode] at hr
  exact G.halts (hw.x C.ai) hr hd hh hin

/-- C54, invalid jumps: where the EVM fails with an invalid jump, so does the compiled program, with the same
observations. -/
theorem C54_invalid_partial (hd : (parse g spec bytes).toProg.insts[i]? = some d) (hh : ¬ Halts d)
    (hj : d.opcode.toNat = 0x56 ∨ d.opcode.toNat = 0x57) (hin : d.stackIo.1 ≤ c.length)
    (hn : evmNext (parse g spec bytes).toCode i d c = none) :
    ∃ n cx, C.run env clob mem n = .invalidJump cx ∧ shown cx.trace = tr := by
  obtain ⟨G, hcode⟩ := goodC_of hC hlen
  rw [← hcode] at hr hn
  refine G.invalid (hw.x C.ai) hr hd hh ?_ hin hn
  unfold InstData.isJump
  rcases hj with h | h
  · rw [toNat_eq (k := 0x56) (by omega) h]; rfl
  · rw [toNat_eq (k := 0x57) (by omega) h]; rfl

/-- C54, stack errors: where the EVM fails with a stack error, the compiled program fails with a stack error, having
done nothing that the EVM has not done (it checks a section at once, so it may fail earlier); it reports an
underflow if the EVM does. For blocks whose heights span at most 32767. -/
theorem C54_stack_partial (hd : (parse g spec bytes).toProg.insts[i]? = some d)
    (hfit : ∀ b ∈ C.prog.blocks,
      highest ((((parse g spec bytes).toProg.insts.drop b.1).take (b.2 - b.1)).map (·.stackIo)) 0 -
        lowest ((((parse g spec bytes).toProg.insts.drop b.1).take (b.2 - b.1)).map (·.stackIo)) 0 ≤ 32767)
    (hf : c.length < d.stackIo.1 ∨ 1024 < c.length - d.stackIo.1 + d.stackIo.2) :
    ∃ n f cx, C.run env clob mem n = .stackError f cx ∧ shown cx.trace <:+ tr ∧
      (c.length < d.stackIo.1 → f = .underflow) := by
  obtain ⟨G, hcode⟩ := goodC_of hC hlen
  rw [← hcode] at hr
  exact G.stack (hw.x C.ai) hr hd (G.fits hfit) hf

/-- C54, undecodable immediates: where the EVM meets an immediate of DUPN, SWAPN or EXCHANGE without meaning, the
compiled program fails there with the same observations, or has failed before with a stack error of the section,
having done nothing that the EVM has not done. For blocks whose heights span at most 32767. -/
theorem C54_immediate_partial (hd : (parse g spec bytes).toProg.insts[i]? = some d)
    (hfit : ∀ b ∈ C.prog.blocks,
      highest ((((parse g spec bytes).toProg.insts.drop b.1).take (b.2 - b.1)).map (·.stackIo)) 0 -
        lowest ((((parse g spec bytes).toProg.insts.drop b.1).take (b.2 - b.1)).map (·.stackIo)) 0 ≤ 32767)
    (hf : Undecodable (parse g spec bytes).toCode i d) :
    ∃ n, (∃ cx, C.run env clob mem n = .badImmediate i cx ∧ shown cx.trace = tr) ∨
      ∃ f cx, C.run env clob mem n = .stackError f cx ∧ shown cx.trace <:+ tr := by
  obtain ⟨G, hcode⟩ := goodC_of hC hlen
  rw [← hcode] at hr hf
  exact G.immediate (hw.x C.ai) hr hd (G.fits hfit) (undecodable_bad.2 hf)

end forward

/-- How an execution of the EVM at instruction `d` with stack `c` ends, and what the compiled program's `out` must then
be. -/
inductive Outcome (code : Code) (env : Env F) (k i : Nat) (d : InstData) (c : List Word) (tr : List (Obs F)) :
    COut F → Prop
  | halted {cx : SCx (Option F)} : Halts d → d.stackIo.1 ≤ c.length → shown cx.trace = observed env k i d c ++ tr →
      cx.lenVar = (c.drop d.stackIo.1).length → Outcome code env k i d c tr (.halted i cx)
  | invalid {cx : SCx (Option F)} : ¬ Halts d → d.opcode.toNat = 0x56 ∨ d.opcode.toNat = 0x57 →
      d.stackIo.1 ≤ c.length → evmNext code i d c = none → shown cx.trace = tr →
      Outcome code env k i d c tr (.invalidJump cx)
  | stack {f : StackFail} {cx : SCx (Option F)} : c.length < d.stackIo.1 ∨ 1024 < c.length - d.stackIo.1 + d.stackIo.2 →
      shown cx.trace <:+ tr → (c.length < d.stackIo.1 → f = .underflow) →
      Outcome code env k i d c tr (.stackError f cx)
  | immediate {cx : SCx (Option F)} : Undecodable code i d → shown cx.trace = tr →
      Outcome code env k i d c tr (.badImmediate i cx)
  | early {f : StackFail} {cx : SCx (Option F)} : Undecodable code i d → shown cx.trace <:+ tr →
      Outcome code env k i d c tr (.stackError f cx)

/-- What a compiled program that has ended says about the EVM's execution. -/
theorem goodC_outcome {base : List InstData} {o : WOpts} {C : Compiled} (G : GoodC base (shallow base) o C)
    {env : Env F} (clob : Nat → Int → Word) (mem : Int → Word) (hw : World base env)
    (hfit : ∀ b ∈ C.prog.blocks,
      highest (((base.drop b.1).take (b.2 - b.1)).map (·.stackIo)) 0 -
        lowest (((base.drop b.1).take (b.2 - b.1)).map (·.stackIo)) 0 ≤ 32767)
    {n : Nat} (hfin : (C.run env clob mem n).final = true) :
    ∃ k i c tr d, Run C.code base env (shallow base) k i c tr ∧ base[i]? = some d ∧
      (Outcome C.code env k i d c tr (C.run env clob mem n) ∨
       ∃ i' c', Step C.code base i c i' c' ∧ Follows C.code env k i d c c' ∧ ¬ shallow base i' c') := by
  have hfit := G.fits hfit
  obtain ⟨k, i, c, tr, d, hr, hd, h⟩ := G.outcome (hw.x C.ai) (fun _ => by simp) hfin
  refine ⟨k, i, c, tr, d, hr, hd, ?_⟩
  have same : ∀ m, (C.run env clob mem m).final = true → C.run env clob mem n = C.run env clob mem m :=
    fun m hm => run_final_eq hfin hm
  rcases h with ⟨h1, h2⟩ | ⟨h1, h2, h3, h4⟩ | h1 | h1 | ⟨i', c', h1, h2, _, h4⟩
  · left
    obtain ⟨m, cx, e1, e2, e3, _⟩ := G.halts (clob := clob) (mem := mem) (hw.x C.ai) hr hd h1 h2
    rw [same m (by rw [e1]; rfl), e1]
    exact .halted h1 h2 e2 e3
  · left
    obtain ⟨m, cx, e1, e2⟩ := G.invalid (clob := clob) (mem := mem) (hw.x C.ai) hr hd h1 h2 h3 h4
    rw [same m (by rw [e1]; rfl), e1]
    refine .invalid h1 ?_ h3 h4 e2
    unfold InstData.isJump at h2
    simp only [Bool.or_eq_true, beq_iff_eq] at h2
    rcases h2 with h | h
    · left; rw [h]; rfl
    · right; rw [h]; rfl
  · left
    obtain ⟨m, f, cx, e1, e2, e3⟩ := G.stack (clob := clob) (mem := mem) (hw.x C.ai) hr hd hfit h1
    rw [same m (by rw [e1]; rfl), e1]
    exact .stack h1 e2 e3
  · left
    obtain ⟨m, ⟨cx, e1, e2⟩ | ⟨f, cx, e1, e2⟩⟩ := G.immediate (clob := clob) (mem := mem) (hw.x C.ai) hr hd hfit h1
    · rw [same m (by rw [e1]; rfl), e1]
      exact .immediate (undecodable_bad.1 h1) e2
    · rw [same m (by rw [e1]; rfl), e1]
      exact .early (undecodable_bad.1 h1) e2
  · exact .inr ⟨i', c', h1, h2, h4⟩

/-- C54, the other direction: if the compiled program has ended, then so does an execution of the EVM, in the same way
and with the same observations — or the EVM's execution takes more than 64 words to a JUMPDEST or behind a JUMPI,
of which the theorems say nothing. In particular the compiled program never runs into code that was not
generated. -/
theorem C54_outcome_partial {g : UInt8 → BitVec 16} {spec : SpecId} {limit : Nat} {bytes : List UInt8} {o : WOpts}
    {C : Compiled} (hC : compileBytes o g spec limit bytes = some C) (hlen : bytes.length ≤ 2 ^ 31)
    {env : Env F} (clob : Nat → Int → Word) (mem : Int → Word) (hw : World (parse g spec bytes).toProg.insts env)
    (hfit : ∀ b ∈ C.prog.blocks,
      highest ((((parse g spec bytes).toProg.insts.drop b.1).take (b.2 - b.1)).map (·.stackIo)) 0 -
        lowest ((((parse g spec bytes).toProg.insts.drop b.1).take (b.2 - b.1)).map (·.stackIo)) 0 ≤ 32767)
    {n : Nat} (hn : ∀ k i cx, C.run env clob mem n ≠ .running k i cx) :
    ∃ k i c tr d, Run (parse g spec bytes).toCode (parse g spec bytes).toProg.insts env
        (shallow (parse g spec bytes).toProg.insts) k i c tr ∧
      (parse g spec bytes).toProg.insts[i]? = some d ∧
      (Outcome (parse g spec bytes).toCode env k i d c tr (C.run env clob mem n) ∨
       ∃ i' c', Step (parse g spec bytes).toCode (parse g spec bytes).toProg.insts i c i' c' ∧
         Follows (parse g spec bytes).toCode env k i d c c' ∧
         ¬ shallow (parse g spec bytes).toProg.insts i' c') := by
  obtain ⟨G, hcode⟩ := goodC_of hC hlen
  have hfin : (C.run env clob mem n).final = true := by
    revert hn
    generalize C.run env clob mem n = out
    intro hn
    cases out with
    | running k i cx => exact absurd rfl (hn k i cx)
    | _ => rfl
  rw [← hcode]
  exact goodC_outcome G clob mem hw hfit hfin

/-! ## Concrete programs -/

/-- Compiling succeeds. -/
theorem compiles {g : UInt8 → BitVec 16} {spec : SpecId} {limit : Nat} {bytes : List UInt8} {o : WOpts}
    (h : (compileBytes o g spec limit bytes).isSome = true) : ∃ C, compileBytes o g spec limit bytes = some C :=
  Option.isSome_iff_exists.1 h

/-- `PUSH1 2; PUSH1 3; ADD; CALLDATASIZE; PUSH1 12; JUMPI; PUSH0; SSTORE; STOP; INVALID; 12: JUMPDEST; STOP`. -/
def addStore : List UInt8 :=
  [0x60, 0x02, 0x60, 0x03, 0x01, 0x36, 0x60, 0x0c, 0x57, 0x5f, 0x55, 0x00, 0x5b, 0x00]

/-- The EVM's execution of `addStore` with empty call data, up to the STOP. -/
theorem addStore_run : Run (parse (fun _ => 3) SpecId.CANCUN addStore).toCode
    (parse (fun _ => 3) SpecId.CANCUN addStore).toProg.insts (demoEnv (parse (fun _ => 3) SpecId.CANCUN addStore).toProg.insts)
    (shallow (parse (fun _ => 3) SpecId.CANCUN addStore).toProg.insts) 8 8 [] [.effect [0, 5]] :=
  demo_run (n := 8) (by decide) (by decide +kernel)

/-- After the JUMPI of `addStore` the compiled program holds the sum. -/
example : ∃ C n cx, compileBytes { dse := true, inspect := false } (fun _ => 3) SpecId.CANCUN 1000 addStore = some C ∧
    C.run (demoEnv (parse (fun _ => 3) SpecId.CANCUN addStore).toProg.insts) (fun _ _ => 7) (fun _ => 9) n =
      .running 6 6 cx ∧ Holds cx [5] := by
  obtain ⟨C, hC⟩ := compiles (o := { dse := true, inspect := false }) (g := fun _ => 3) (spec := SpecId.CANCUN)
    (limit := 1000) (bytes := addStore) (by decide +kernel)
  have hb : (6, 9) ∈ C.prog.blocks := by rw [compile_prog hC]; decide +kernel
  obtain ⟨n, cx, h1, h2, _⟩ := C54_enters_partial hC (by decide) (fun _ _ => 7) (fun _ => 9) (demo_world _)
    (demo_run (n := 6) (k := 6) (i := 6) (c := [5]) (tr := []) (by decide) (by decide +kernel)) hb rfl
  exact ⟨C, n, cx, hC, h1, h2⟩

/-- With dead-store elimination, `addStore` with empty call data stores 5 at 0 and stops. -/
example : ∃ C n cx, compileBytes { dse := true, inspect := false } (fun _ => 3) SpecId.CANCUN 1000 addStore = some C ∧
    C.run (demoEnv (parse (fun _ => 3) SpecId.CANCUN addStore).toProg.insts) (fun _ _ => 7) (fun _ => 9) n =
      .halted 8 cx ∧ shown cx.trace = [.effect [0, 5]] := by
  obtain ⟨C, hC⟩ := compiles (o := { dse := true, inspect := false }) (g := fun _ => 3) (spec := SpecId.CANCUN)
    (limit := 1000) (bytes := addStore) (by decide +kernel)
  have hd : (parse (fun _ => 3) SpecId.CANCUN addStore).toProg.insts[8]?.map
      (fun d => (d.opcode, d.stackIo, observed (demoEnv (parse (fun _ => 3) SpecId.CANCUN addStore).toProg.insts) 8 8 d [])) =
      some (0, (0, 0), []) := by decide +kernel
  obtain ⟨d, hd, he⟩ := Option.map_eq_some_iff.1 hd
  simp only [Prod.mk.injEq] at he
  obtain ⟨n, cx, h1, h2, _⟩ := C54_halts_partial hC (by decide) (fun _ _ => 7) (fun _ => 9) (demo_world _)
    addStore_run hd (.inr (.inr (by rw [he.1]; decide))) (by rw [show d.stackIo = (0, 0) from he.2.1]; decide)
  exact ⟨C, n, cx, hC, h1, by rw [h2, he.2.2]; rfl⟩

/-- `PUSH0; PUSH0; SSTORE; CALLDATASIZE; JUMP` stores and fails with an invalid jump. -/
example : ∃ C n cx, compileBytes { dse := true, inspect := true } (fun _ => 3) SpecId.CANCUN 1000
      [0x5f, 0x5f, 0x55, 0x36, 0x56] = some C ∧
    C.run (demoEnv (parse (fun _ => 3) SpecId.CANCUN [0x5f, 0x5f, 0x55, 0x36, 0x56]).toProg.insts) (fun _ _ => 7)
      (fun _ => 9) n = .invalidJump cx ∧ shown cx.trace = [.effect [0, 0]] := by
  obtain ⟨C, hC⟩ := compiles (o := { dse := true, inspect := true }) (g := fun _ => 3) (spec := SpecId.CANCUN)
    (limit := 1000) (bytes := [0x5f, 0x5f, 0x55, 0x36, 0x56]) (by decide +kernel)
  have hd : (parse (fun _ => 3) SpecId.CANCUN [0x5f, 0x5f, 0x55, 0x36, 0x56]).toProg.insts[4]?.map
      (fun d => (d.opcode, d.stackIo, decide (Halts d))) = some (0x56, (1, 0), false) := by decide +kernel
  obtain ⟨d, hd, he⟩ := Option.map_eq_some_iff.1 hd
  simp only [Prod.mk.injEq] at he
  have hio : d.stackIo = (1, 0) := he.2.1
  obtain ⟨n, cx, h1, h2⟩ := C54_invalid_partial hC (by decide) (fun _ _ => 7) (fun _ => 9) (demo_world _)
    (demo_run (n := 4) (k := 4) (i := 4) (c := [0]) (tr := [.effect [0, 0]]) (by decide) (by decide +kernel)) hd
    (by simpa using he.2.2) (.inl (by rw [he.1]; rfl)) (by rw [hio]; decide)
    (by unfold evmNext; rw [he.1]; decide +kernel)
  exact ⟨C, n, cx, hC, h1, h2⟩

/-- `PUSH0; PUSH0; SSTORE; POP` fails with an underflow. -/
example : ∃ C n cx, compileBytes { dse := true, inspect := true } (fun _ => 3) SpecId.CANCUN 1000
      [0x5f, 0x5f, 0x55, 0x50] = some C ∧
    C.run (demoEnv (parse (fun _ => 3) SpecId.CANCUN [0x5f, 0x5f, 0x55, 0x50]).toProg.insts) (fun _ _ => 7)
      (fun _ => 9) n = .stackError .underflow cx ∧ shown cx.trace <:+ [.effect [0, 0]] := by
  obtain ⟨C, hC⟩ := compiles (o := { dse := true, inspect := true }) (g := fun _ => 3) (spec := SpecId.CANCUN)
    (limit := 1000) (bytes := [0x5f, 0x5f, 0x55, 0x50]) (by decide +kernel)
  have hd : (parse (fun _ => 3) SpecId.CANCUN [0x5f, 0x5f, 0x55, 0x50]).toProg.insts[3]?.map
      (fun d => d.stackIo) = some (1, 0) := by decide +kernel
  obtain ⟨d, hd, hio⟩ := Option.map_eq_some_iff.1 hd
  obtain ⟨n, f, cx, h1, h2, h3⟩ := C54_stack_partial hC (by decide) (fun _ _ => 7) (fun _ => 9) (demo_world _)
    (demo_run (n := 3) (k := 3) (i := 3) (c := []) (tr := [.effect [0, 0]]) (by decide) (by decide +kernel)) hd
    (by rw [compile_prog hC]; decide +kernel) (.inl (by rw [hio]; decide))
  rw [h3 (by rw [hio]; decide)] at h1
  exact ⟨C, n, cx, hC, h1, h2⟩

/-- `PUSH0; PUSH0; SSTORE; DUPN 0x5b` (no such immediate) fails. -/
example : ∃ C n, compileBytes { dse := true, inspect := true } (fun _ => 3) SpecId.AMSTERDAM 1000
      [0x5f, 0x5f, 0x55, 0xe6, 0x5b] = some C ∧
    ((∃ cx, C.run (demoEnv (parse (fun _ => 3) SpecId.AMSTERDAM [0x5f, 0x5f, 0x55, 0xe6, 0x5b]).toProg.insts) (fun _ _ => 7)
      (fun _ => 9) n = .badImmediate 3 cx ∧ shown cx.trace = [.effect [0, 0]]) ∨
     ∃ f cx, C.run (demoEnv (parse (fun _ => 3) SpecId.AMSTERDAM [0x5f, 0x5f, 0x55, 0xe6, 0x5b]).toProg.insts) (fun _ _ => 7)
      (fun _ => 9) n = .stackError f cx ∧ shown cx.trace <:+ [.effect [0, 0]]) := by
  obtain ⟨C, hC⟩ := compiles (o := { dse := true, inspect := true }) (g := fun _ => 3) (spec := SpecId.AMSTERDAM)
    (limit := 1000) (bytes := [0x5f, 0x5f, 0x55, 0xe6, 0x5b]) (by decide +kernel)
  have hd : (parse (fun _ => 3) SpecId.AMSTERDAM [0x5f, 0x5f, 0x55, 0xe6, 0x5b]).toProg.insts[3]?.map
      (fun d => (d.opcode, d.flags.disabled, d.flags.unknown)) = some (0xe6, false, false) := by decide +kernel
  obtain ⟨d, hd, he⟩ := Option.map_eq_some_iff.1 hd
  simp only [Prod.mk.injEq] at he
  obtain ⟨n, h⟩ := C54_immediate_partial hC (by decide) (fun _ _ => 7) (fun _ => 9) (demo_world _)
    (demo_run (n := 3) (k := 3) (i := 3) (c := []) (tr := [.effect [0, 0]]) (by decide) (by decide +kernel)) hd
    (by rw [compile_prog hC]; decide +kernel)
    ⟨by rw [he.2.1, he.2.2]; decide, .inl ⟨by rw [he.1]; decide, by decide +kernel⟩⟩
  exact ⟨C, n, hC, h⟩

/-- The compiled `addStore` ends within two blocks, so `C54_outcome_partial` speaks about it. -/
example : ∃ C, compileBytes { dse := true, inspect := false } (fun _ => 3) SpecId.CANCUN 1000 addStore = some C ∧
    (∀ b ∈ C.prog.blocks,
      highest ((((parse (fun _ => 3) SpecId.CANCUN addStore).toProg.insts.drop b.1).take (b.2 - b.1)).map (·.stackIo)) 0 -
        lowest ((((parse (fun _ => 3) SpecId.CANCUN addStore).toProg.insts.drop b.1).take (b.2 - b.1)).map (·.stackIo)) 0 ≤
        32767) ∧
    ∀ k i cx, C.run (demoEnv (parse (fun _ => 3) SpecId.CANCUN addStore).toProg.insts) (fun _ _ => 7) (fun _ => 9) 2 ≠
      .running k i cx := by
  have h : (compileBytes { dse := true, inspect := false } (fun _ => 3) SpecId.CANCUN 1000 addStore).map (fun C =>
      (C.run (demoEnv (parse (fun _ => 3) SpecId.CANCUN addStore).toProg.insts) (fun _ _ => 7) (fun _ => 9) 2).final) =
      some true := by decide +kernel
  obtain ⟨C, hC, h⟩ := Option.map_eq_some_iff.1 h
  refine ⟨C, hC, by rw [compile_prog hC]; decide +kernel, fun k i cx hx => ?_⟩
  rw [hx] at h
  cases h

/-! ## The restriction to shallow stacks is necessary -/

/-- The instruction that ended a program. -/
def COut.haltedAt : COut F → Option Nat
  | .halted i _ => some i
  | _ => none

/-- C54 fails: with empty call data, `deepCode` (`Props/Flow.lean`) stops at Y in the EVM, and at X when compiled. -/
theorem C54_halts_fails : ¬ C54_halts := by
  intro h
  have h1 : (compileBytes { dse := false, inspect := false } (fun _ => 3) SpecId.CANCUN 1000 deepCode).map (fun C =>
      (C.run (demoEnv (parse (fun _ => 3) SpecId.CANCUN deepCode).toProg.insts) (fun _ _ => 7) (fun _ => 9) 5).haltedAt) =
      some (some 151) := by decide +kernel
  obtain ⟨C, hC, h1⟩ := Option.map_eq_some_iff.1 h1
  have hd : (parse (fun _ => 3) SpecId.CANCUN deepCode).toProg.insts[153]?.map
      (fun d => (d.opcode, d.stackIo)) = some (0, 0, 0) := by decide +kernel
  obtain ⟨d, hd, he⟩ := Option.map_eq_some_iff.1 hd
  simp only [Prod.mk.injEq] at he
  have hio : d.stackIo = (0, 0) := he.2
  obtain ⟨n, cx, h2, _⟩ := h (List Word) (fun _ => 3) SpecId.CANCUN 1000 deepCode _ C hC (by decide +kernel) _
    (fun _ _ => 7) (fun _ => 9) (demo_world _) 142 153 [] [] d
    (demo_run_any (n := 142) (by decide +kernel) (by decide +kernel)) hd (.inr (.inr (by rw [he.1]; decide)))
    (by rw [hio]; decide)
  have h3 : (C.run (demoEnv (parse (fun _ => 3) SpecId.CANCUN deepCode).toProg.insts) (fun _ _ => 7) (fun _ => 9)
      5).final = true := by
    revert h1
    generalize C.run (demoEnv (parse (fun _ => 3) SpecId.CANCUN deepCode).toProg.insts) (fun _ _ => 7) (fun _ => 9) 5 = x
    intro h1
    cases x <;> first | rfl | cases h1
  have := run_final_eq h3 (by rw [h2]; rfl : (C.run _ _ _ n).final = true)
  rw [this, h2] at h1
  cases h1

end Verif
