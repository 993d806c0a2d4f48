import Verif.Lemmas.WholeGasExec
import Verif.Props.Whole
/-!
# C55: a whole compiled program leaves the gas that the EVM leaves

The EVM pays for every instruction when it executes it (`Spec.GasRun`). The compiled program (`Compiled.runG`) pays the
static gas of a whole section at its head, EXP with known operands included, and the rest where the instructions
run. Claimed is that this cannot be told apart: equal gas wherever the counter is read, at the start of every block and
at the end of the execution, and an execution that runs out of gas fails in both.

All theorems here are partial: deduplication and memory sections are excluded, the executions are those that never
have more than 64 words on the stack at a JUMPDEST or right after a JUMPI (`shallow`; the claim is false without it, see
`C55_halts_fails`), and the static gas of the program fits 32 bits.
-/

namespace Verif
open Spec
variable {F : Type}

/-- The static gas of all instructions, with at most `M` for every EXP, fits 32 bits. -/
def GasFits (insts : List InstData) (expCost : Word → Nat) : Prop :=
  ∃ M, (∀ w, expCost w ≤ M) ∧ (insts.map (·.baseGas)).sum + insts.length * M < 2 ^ 32

/-- The compiled program ends at the instruction that ends the EVM's execution, with the same gas, the same values
read from the counter, the same observations and the same height of the stack; with the same stack, if it is to be
inspected or dead stores are kept. -/
def EndsPaid (C : Compiled) (o : WOpts) (expCost : Word → Nat) (env : Env F) (dyn : Nat → Nat → List Word → Nat)
    (clob : Nat → Int → Word) (mem : Int → Word) (g0 k i : Nat) (d : InstData) (c : List Word) (tr : List (Obs F))
    (g : Nat) (rd : List (Nat × Nat)) : Prop :=
  ∃ n cx, C.runG expCost env dyn clob mem g0 n = .halted i cx (g - d.baseGas - dyn k i (c.take d.stackIo.1)) rd ∧
    effects (shown cx.trace) = observed env k i d c ++ tr ∧ cx.lenVar = (c.drop d.stackIo.1).length ∧
    ((o.dse = true → o.inspect = true) → Holds cx (c.drop d.stackIo.1))

/-- C55, full statement for executions that halt. -/
def C55_halts : Prop :=
  ∀ (F : Type) (tbl : UInt8 → BitVec 16) (spec : SpecId) (limit : Nat) (bytes : List UInt8) (o : WOpts) (C : Compiled),
    compileBytes o tbl spec limit bytes = some C → bytes.length ≤ 2 ^ 31 →
    ∀ (env : Env F) (dyn : Nat → Nat → List Word → Nat) (expCost : Word → Nat) (clob : Nat → Int → Word)
      (mem : Int → Word), World (parse tbl spec bytes).toProg.insts env →
    Costs (parse tbl spec bytes).toProg.insts dyn expCost →
    ∀ g0 k i c tr g rd d, GasRun (parse tbl spec bytes).toCode (parse tbl spec bytes).toProg.insts spec env dyn always
        g0 k i c tr g rd →
      (parse tbl spec bytes).toProg.insts[i]? = some d → Halts d →
      ¬ (d.flags.disabled = true ∨ d.flags.unknown = true) → d.stackIo.1 ≤ c.length →
      d.baseGas + dyn k i (c.take d.stackIo.1) ≤ g →
      EndsPaid C o expCost env dyn clob mem g0 k i d c tr g rd

section forward
variable {tbl : UInt8 → BitVec 16} {spec : SpecId} {limit : Nat} {bytes : List UInt8} {o : WOpts} {C : Compiled}
  (hC : compileBytes o tbl spec limit bytes = some C) (hlen : bytes.length ≤ 2 ^ 31)
  {env : Env F} {dyn : Nat → Nat → List Word → Nat} {expCost : Word → Nat}
  (clob : Nat → Int → Word) (mem : Int → Word) (hw : World (parse tbl spec bytes).toProg.insts env)
  (hc : Costs (parse tbl spec bytes).toProg.insts dyn expCost)
  (hfits : GasFits (parse tbl spec bytes).toProg.insts expCost)
  {g0 k i : Nat} {c : List Word} {tr : List (Obs F)} {g : Nat} {rd : List (Nat × Nat)} {d : InstData}
  (hr : GasRun (parse tbl spec bytes).toCode (parse tbl spec bytes).toProg.insts spec env dyn
    (shallow (parse tbl spec bytes).toProg.insts) g0 k i c tr g rd)
include hC hlen hw hc hfits hr

/-- C55, running: whenever the EVM is at the first instruction of a block, the compiled program is there too, with
the same gas, having read the same values of the counter, holding the same stack and with the same observations. -/
theorem C55_enters_partial {b : Nat × Nat} (hb : b ∈ C.prog.blocks) (hi : b.1 = i) :
    ∃ n cx, C.runG expCost env dyn clob mem g0 n = .running k i cx g rd ∧ Holds cx c ∧
      effects (shown cx.trace) = tr := by
  obtain ⟨G, hcode⟩ := goodC_of hC hlen
  obtain ⟨M, hM, hs⟩ := hfits
  have hspec := compile_spec hC
  rw [← hcode, ← hspec] at hr
  rw [← hspec] at hw hc hs G
  exact G.genters hw hc (sumsFit_of G.sound.ev hM hs) hr hb hi

/-- C55, halting: where the EVM halts with STOP, RETURN, REVERT, INVALID or SELFDESTRUCT, having paid for it, so does
the compiled program, with the same gas left. -/
theorem C55_halts_partial (hd : (parse tbl spec bytes).toProg.insts[i]? = some d) (hh : Halts d)
    (hoff : ¬ (d.flags.disabled = true ∨ d.flags.unknown = true)) (hin : d.stackIo.1 ≤ c.length)
    (hg : d.baseGas + dyn k i (c.take d.stackIo.1) ≤ g) :
    EndsPaid C o expCost env dyn clob mem g0 k i d c tr g rd := by
  obtain ⟨G, hcode⟩ := goodC_of hC hlen
  obtain ⟨M, hM, hs⟩ := hfits
  have hspec := compile_spec hC
  rw [← hcode, ← hspec] at hr
  rw [← hspec] at hw hc hs G hd
  exact (G.ghalts hw hc (sumsFit_of G.sound.ev hM hs) hr hd hh hin).1 (by simpa using hoff) hg

/-- C55, opcodes that do not exist: where the EVM fails for a disabled or unknown opcode, so does the compiled
program, there or because the section of the opcode is too expensive. -/
theorem C55_unknown_partial (hd : (parse tbl spec bytes).toProg.insts[i]? = some d)
    (hoff : d.flags.disabled = true ∨ d.flags.unknown = true) (hin : d.stackIo.1 ≤ c.length) :
    ∃ n, C.runG expCost env dyn clob mem g0 n = .outOfGas ∨
      ∃ cx g' rd', C.runG expCost env dyn clob mem g0 n = .halted i cx g' rd' ∧
        effects (shown cx.trace) = observed env k i d c ++ tr := by
  obtain ⟨G, hcode⟩ := goodC_of hC hlen
  obtain ⟨M, hM, hs⟩ := hfits
  have hspec := compile_spec hC
  rw [← hcode, ← hspec] at hr
  rw [← hspec] at hw hc hs G hd
  exact (G.ghalts hw hc (sumsFit_of G.sound.ev hM hs) hr hd (by rcases hoff with h | h <;> simp [Halts, h]) hin).2
    (by simpa using hoff)

/-- C55, invalid jumps: where the EVM fails with an invalid jump that it could pay, so does the compiled program. -/
theorem C55_invalid_partial (hd : (parse tbl spec bytes).toProg.insts[i]? = some d) (hh : ¬ Halts d)
    (hj : d.opcode.toNat = 0x56 ∨ d.opcode.toNat = 0x57) (hin : d.stackIo.1 ≤ c.length)
    (hn : evmNext (parse tbl spec bytes).toCode i d c = none) (hg : d.baseGas + dyn k i (c.take d.stackIo.1) ≤ g) :
    ∃ n, C.runG expCost env dyn clob mem g0 n = .invalidJump := by
  obtain ⟨G, hcode⟩ := goodC_of hC hlen
  obtain ⟨M, hM, hs⟩ := hfits
  have hspec := compile_spec hC
  rw [← hcode, ← hspec] at hr
  rw [← hcode] at hn
  rw [← hspec] at hw hc hs G hd
  refine G.ginvalid hw hc (sumsFit_of G.sound.ev hM hs) hr hd hh ?_ hin hn hg
  unfold InstData.isJump
  rcases hj with h | h
  · rw [toNat_eq (k := 0x56) (by omega) h]; rfl
  · rw [toNat_eq (k := 0x57) (by omega) h]; rfl

/-- C55, other failures: where the EVM fails with a stack error or an undecodable immediate, the compiled program
fails with a stack error, at the immediate, or for lack of gas. For blocks whose heights span at most 32767. -/
theorem C55_fails_alike_partial (hd : (parse tbl spec bytes).toProg.insts[i]? = some d)
    (hfit : ∀ b ∈ C.prog.blocks,
      highest ((((parse tbl spec bytes).toProg.insts.drop b.1).take (b.2 - b.1)).map (·.stackIo)) 0 -
        lowest ((((parse tbl spec bytes).toProg.insts.drop b.1).take (b.2 - b.1)).map (·.stackIo)) 0 ≤ 32767)
    (hf : (c.length < d.stackIo.1 ∨ 1024 < c.length - d.stackIo.1 + d.stackIo.2) ∨
      Undecodable (parse tbl spec bytes).toCode i d) :
    ∃ n, C.runG expCost env dyn clob mem g0 n = .outOfGas ∨
      (∃ f, C.runG expCost env dyn clob mem g0 n = .stackError f) ∨
      (Undecodable (parse tbl spec bytes).toCode i d ∧ C.runG expCost env dyn clob mem g0 n = .badImmediate i) := by
  obtain ⟨G, hcode⟩ := goodC_of hC hlen
  obtain ⟨M, hM, hs⟩ := hfits
  have hspec := compile_spec hC
  rw [← hcode, ← hspec] at hr
  rw [← hcode] at hf ⊢
  rw [← hspec] at hw hc hs G hd hfit
  rw [← undecodable_bad] at hf
  obtain ⟨n, h⟩ := G.gfails (clob := clob) (mem := mem) hw hc (sumsFit_of G.sound.ev hM hs) hr hd (G.fits hfit) hf
  refine ⟨n, ?_⟩
  rw [undecodable_bad] at h
  exact h

/-- C55, out of gas: where the EVM runs out of gas, so does the compiled program, unless it reports a stack error
that the EVM would have met later in the same section. For blocks whose heights span at most 32767. -/
theorem C55_outOfGas_partial (hd : (parse tbl spec bytes).toProg.insts[i]? = some d)
    (hfit : ∀ b ∈ C.prog.blocks,
      highest ((((parse tbl spec bytes).toProg.insts.drop b.1).take (b.2 - b.1)).map (·.stackIo)) 0 -
        lowest ((((parse tbl spec bytes).toProg.insts.drop b.1).take (b.2 - b.1)).map (·.stackIo)) 0 ≤ 32767)
    (hg : NoGas dyn k i d c g) :
    ∃ n, C.runG expCost env dyn clob mem g0 n = .outOfGas ∨
      ∃ f, C.runG expCost env dyn clob mem g0 n = .stackError f := by
  obtain ⟨G, hcode⟩ := goodC_of hC hlen
  obtain ⟨M, hM, hs⟩ := hfits
  have hspec := compile_spec hC
  rw [← hcode, ← hspec] at hr
  rw [← hspec] at hw hc hs G hd hfit
  exact G.goog hw hc (sumsFit_of G.sound.ev hM hs) hr hd (G.fits hfit) hg

end forward

/-- How an execution of the EVM with gas `g` at instruction `d` ends, and what the compiled program's `out` must then
be. -/
inductive PaidOutcome (code : Code) (env : Env F) (dyn : Nat → Nat → List Word → Nat) (k i : Nat) (d : InstData)
    (c : List Word) (tr : List (Obs F)) (g : Nat) (rd : List (Nat × Nat)) : GOut F → Prop
  | halted {cx : SCx (Option (Paid F))} : Halts d → ¬ (d.flags.disabled = true ∨ d.flags.unknown = true) →
      d.stackIo.1 ≤ c.length → d.baseGas + dyn k i (c.take d.stackIo.1) ≤ g →
      effects (shown cx.trace) = observed env k i d c ++ tr → cx.lenVar = (c.drop d.stackIo.1).length →
      PaidOutcome code env dyn k i d c tr g rd (.halted i cx (g - d.baseGas - dyn k i (c.take d.stackIo.1)) rd)
  | unknown {out : GOut F} : d.flags.disabled = true ∨ d.flags.unknown = true →
      (out = .outOfGas ∨ ∃ cx g' rd', out = .halted i cx g' rd') → PaidOutcome code env dyn k i d c tr g rd out
  | invalid : ¬ Halts d → d.opcode.toNat = 0x56 ∨ d.opcode.toNat = 0x57 → d.stackIo.1 ≤ c.length →
      evmNext code i d c = none → d.baseGas + dyn k i (c.take d.stackIo.1) ≤ g →
      PaidOutcome code env dyn k i d c tr g rd .invalidJump
  | failed {out : GOut F} : (c.length < d.stackIo.1 ∨ 1024 < c.length - d.stackIo.1 + d.stackIo.2) ∨
      Undecodable code i d → (out = .outOfGas ∨ (∃ f, out = .stackError f) ∨ (Undecodable code i d ∧ out = .badImmediate i)) →
      PaidOutcome code env dyn k i d c tr g rd out
  | noGas {out : GOut F} : NoGas dyn k i d c g → (out = .outOfGas ∨ ∃ f, out = .stackError f) →
      PaidOutcome code env dyn k i d c tr g rd out

/-- `C55_outcome_partial` for any program compiled soundly. -/
theorem goodC_paid {base : List InstData} {o : WOpts} {C : Compiled} (G : GoodC base (shallow base) o C)
    {env : Env F} {dyn : Nat → Nat → List Word → Nat} {expCost : Word → Nat}
    (clob : Nat → Int → Word) (mem : Int → Word) (hw : World base env) (hc : Costs base dyn expCost)
    (hsf : SumsFit C expCost)
    (hfit : ∀ b ∈ C.prog.blocks,
      highest (((base.drop b.1).take (b.2 - b.1)).map (·.stackIo)) 0 -
        lowest (((base.drop b.1).take (b.2 - b.1)).map (·.stackIo)) 0 ≤ 32767)
    {g0 n : Nat} (hfin : (C.runG expCost env dyn clob mem g0 n).final = true) :
    ∃ k i c tr g rd d, GasRun C.code base C.spec env dyn (shallow base) g0 k i c tr g rd ∧ base[i]? = some d ∧
      (PaidOutcome C.code env dyn k i d c tr g rd (C.runG expCost env dyn clob mem g0 n) ∨
       ∃ i' c', Step C.code base i c i' c' ∧ Follows C.code env k i d c c' ∧ ¬ shallow base i' c') := by
  have hfit := G.fits hfit
  have same : ∀ m, (C.runG expCost env dyn clob mem g0 m).final = true →
      C.runG expCost env dyn clob mem g0 n = C.runG expCost env dyn clob mem g0 m :=
    fun m hm => runG_final_eq hfin hm
  obtain ⟨k, i, c, tr, g, rd, d, hr, hd, h⟩ := G.goutcome hw hc hsf (fun _ => by simp) hfin
  refine ⟨k, i, c, tr, g, rd, d, hr, hd, ?_⟩
  rcases h with ⟨h1, h2, h3⟩ | ⟨h1, h2, h3, h4, h5⟩ | h1 | h1 | h1 | ⟨i', c', h1, h2, _, h4⟩
  · left
    by_cases hoff : (d.flags.disabled || d.flags.unknown) = true
    · refine .unknown (by simpa using hoff) ?_
      obtain ⟨m, e⟩ := (G.ghalts (clob := clob) (mem := mem) hw hc hsf hr hd h1 h2).2 hoff
      rcases e with e | ⟨cx, g', rd', e, _⟩
      · rw [same m (by rw [e]; rfl)]; exact .inl e
      · rw [same m (by rw [e]; rfl)]; exact .inr ⟨cx, g', rd', e⟩
    · have h3 := h3.resolve_left hoff
      obtain ⟨m, cx, e1, e2, e3, _⟩ :=
        (G.ghalts (clob := clob) (mem := mem) hw hc hsf hr hd h1 h2).1 (by simpa using hoff) h3
      rw [same m (by rw [e1]; rfl), e1]
      exact .halted h1 (by simpa using hoff) h2 h3 e2 e3
  · left
    obtain ⟨m, e⟩ := G.ginvalid (clob := clob) (mem := mem) hw hc hsf hr hd h1 h2 h3 h4 h5
    rw [same m (by rw [e]; rfl), e]
    refine .invalid h1 ?_ h3 h4 h5
    unfold InstData.isJump at h2
    simp only [Bool.or_eq_true, beq_iff_eq] at h2
    rcases h2 with h | h
    · left; rw [h]; rfl
    · right; rw [h]; rfl
  · left
    obtain ⟨m, e⟩ := G.gfails (clob := clob) (mem := mem) hw hc hsf hr hd hfit (.inl h1)
    refine .failed (.inl h1) ?_
    rw [same m (by rcases e with e | ⟨f, e⟩ | ⟨_, e⟩ <;> rw [e] <;> rfl), ← undecodable_bad]
    exact e
  · left
    obtain ⟨m, e⟩ := G.gfails (clob := clob) (mem := mem) hw hc hsf hr hd hfit (.inr h1)
    refine .failed (.inr (undecodable_bad.1 h1)) ?_
    rw [same m (by rcases e with e | ⟨f, e⟩ | ⟨_, e⟩ <;> rw [e] <;> rfl), ← undecodable_bad]
    exact e
  · left
    obtain ⟨m, e⟩ := G.goog (clob := clob) (mem := mem) hw hc hsf hr hd hfit h1
    refine .noGas h1 ?_
    rw [same m (by rcases e with e | ⟨f, e⟩ <;> rw [e] <;> rfl)]
    exact e
  · exact .inr ⟨i', c', h1, h2, h4⟩

/-- C55, the other direction: if the compiled program has ended, then so does an execution of the EVM, in the same way
and with the same gas — or the EVM's execution takes more than 64 words to a JUMPDEST or behind a JUMPI, of which the
theorems say nothing. In particular the compiled program runs out of gas only if the EVM's execution fails. -/
theorem C55_outcome_partial {tbl : UInt8 → BitVec 16} {spec : SpecId} {limit : Nat} {bytes : List UInt8} {o : WOpts}
    {C : Compiled} (hC : compileBytes o tbl spec limit bytes = some C) (hlen : bytes.length ≤ 2 ^ 31)
    {env : Env F} {dyn : Nat → Nat → List Word → Nat} {expCost : Word → Nat}
    (clob : Nat → Int → Word) (mem : Int → Word) (hw : World (parse tbl spec bytes).toProg.insts env)
    (hc : Costs (parse tbl spec bytes).toProg.insts dyn expCost)
    (hfits : GasFits (parse tbl spec bytes).toProg.insts expCost)
    (hfit : ∀ b ∈ C.prog.blocks,
      highest ((((parse tbl spec bytes).toProg.insts.drop b.1).take (b.2 - b.1)).map (·.stackIo)) 0 -
        lowest ((((parse tbl spec bytes).toProg.insts.drop b.1).take (b.2 - b.1)).map (·.stackIo)) 0 ≤ 32767)
    {g0 n : Nat} (hn : ∀ k i cx g rd, C.runG expCost env dyn clob mem g0 n ≠ .running k i cx g rd) :
    ∃ k i c tr g rd d, GasRun (parse tbl spec bytes).toCode (parse tbl spec bytes).toProg.insts spec env dyn
        (shallow (parse tbl spec bytes).toProg.insts) g0 k i c tr g rd ∧
      (parse tbl spec bytes).toProg.insts[i]? = some d ∧
      (PaidOutcome (parse tbl spec bytes).toCode env dyn k i d c tr g rd (C.runG expCost env dyn clob mem g0 n) ∨
       ∃ i' c', Step (parse tbl spec bytes).toCode (parse tbl spec bytes).toProg.insts i c i' c' ∧
         Follows (parse tbl spec bytes).toCode env k i d c c' ∧
         ¬ shallow (parse tbl spec bytes).toProg.insts i' c') := by
  obtain ⟨G, hcode⟩ := goodC_of hC hlen
  obtain ⟨M, hM, hs⟩ := hfits
  have hspec := compile_spec hC
  have hfin : (C.runG expCost env dyn clob mem g0 n).final = true := by
    revert hn
    generalize C.runG expCost env dyn clob mem g0 n = out
    intro hn
    cases out with
    | running k i cx g rd => exact absurd rfl (hn k i cx g rd)
    | _ => rfl
  have h := goodC_paid G clob mem hw hc (sumsFit_of G.sound.ev hM hs) hfit hfin
  rw [hcode, hspec] at h
  exact h

/-! ## Concrete programs -/

/-- `PUSH1 2; PUSH1 3; EXP; CALLDATASIZE; EXP; GAS; SSTORE; STOP`: the gas of the first EXP is folded into the
section, the second charges when it runs, and GAS and SSTORE read the counter. -/
def gasCode : List UInt8 := [0x60, 0x02, 0x60, 0x03, 0x0a, 0x36, 0x0a, 0x5a, 0x55, 0x00]

theorem gasCode_fits : GasFits (parse (fun _ => 3) SpecId.CANCUN gasCode).toProg.insts demoExp :=
  ⟨100, demoExp_le, by decide +kernel⟩

/-- Started with 1000, `gasCode` stops with 779 left; it read 882 twice. -/
example : ∃ C n cx, compileBytes { dse := true, inspect := false } (fun _ => 3) SpecId.CANCUN 1000 gasCode = some C ∧
    C.runG demoExp (demoEnv (parse (fun _ => 3) SpecId.CANCUN gasCode).toProg.insts)
      (demoDyn (parse (fun _ => 3) SpecId.CANCUN gasCode).toProg.insts) (fun _ _ => 7) (fun _ => 9) 1000 n =
      .halted 7 cx 779 [(6, 882), (5, 882)] := by
  obtain ⟨C, hC⟩ := compiles (o := { dse := true, inspect := false }) (g := fun _ => 3) (spec := SpecId.CANCUN)
    (limit := 1000) (bytes := gasCode) (by decide +kernel)
  have hd : (parse (fun _ => 3) SpecId.CANCUN gasCode).toProg.insts[7]?.map
      (fun d => (d.opcode, d.stackIo, d.baseGas, d.flags.disabled, d.flags.unknown)) =
      some (0, (0, 0), 3, false, false) := by decide +kernel
  obtain ⟨d, hd, he⟩ := Option.map_eq_some_iff.1 hd
  simp only [Prod.mk.injEq] at he
  have hio : d.stackIo = (0, 0) := he.2.1
  have hdyn : demoDyn (parse (fun _ => 3) SpecId.CANCUN gasCode).toProg.insts 7 7 [] = 0 := by decide +kernel
  obtain ⟨n, cx, h, _⟩ := C55_halts_partial hC (by decide) (fun _ _ => 7) (fun _ => 9) (demo_world _) (demo_costs _)
    gasCode_fits
    (demo_gas_run (g0 := 1000) (n := 7) (k := 7) (i := 7) (c := []) (tr := [.effect [0, 0], .effect []]) (gl := 782)
      (rd := [(6, 882), (5, 882)]) (by decide) (by decide +kernel))
    hd (.inr (.inr (by rw [he.1]; decide))) (by rw [he.2.2.2.1, he.2.2.2.2]; decide) (by rw [hio]; decide)
    (by rw [he.2.2.1, hio]; show 3 + demoDyn _ 7 7 [] ≤ 782; rw [hdyn]; decide)
  rw [he.2.2.1, hio] at h
  have : 782 - 3 - demoDyn (parse (fun _ => 3) SpecId.CANCUN gasCode).toProg.insts 7 7 [] = 779 := by rw [hdyn]
  exact ⟨C, n, cx, hC, by rw [← this]; exact h⟩

/-- Started with 130, `gasCode` cannot pay for its SSTORE. -/
example : ∃ C n, compileBytes { dse := true, inspect := false } (fun _ => 3) SpecId.CANCUN 1000 gasCode = some C ∧
    (C.runG demoExp (demoEnv (parse (fun _ => 3) SpecId.CANCUN gasCode).toProg.insts)
      (demoDyn (parse (fun _ => 3) SpecId.CANCUN gasCode).toProg.insts) (fun _ _ => 7) (fun _ => 9) 130 n = .outOfGas ∨
     ∃ f, C.runG demoExp (demoEnv (parse (fun _ => 3) SpecId.CANCUN gasCode).toProg.insts)
      (demoDyn (parse (fun _ => 3) SpecId.CANCUN gasCode).toProg.insts) (fun _ _ => 7) (fun _ => 9) 130 n =
      .stackError f) := by
  obtain ⟨C, hC⟩ := compiles (o := { dse := true, inspect := false }) (g := fun _ => 3) (spec := SpecId.CANCUN)
    (limit := 1000) (bytes := gasCode) (by decide +kernel)
  have hd : (parse (fun _ => 3) SpecId.CANCUN gasCode).toProg.insts[6]?.map
      (fun d => (d.stackIo, d.baseGas, d.flags.disabled, d.flags.unknown)) =
      some ((2, 0), 0, false, false) := by decide +kernel
  obtain ⟨d, hd, he⟩ := Option.map_eq_some_iff.1 hd
  simp only [Prod.mk.injEq] at he
  have hio : d.stackIo = (2, 0) := he.1
  have hdyn : demoDyn (parse (fun _ => 3) SpecId.CANCUN gasCode).toProg.insts 6 6 [0, 0] = 100 := by decide +kernel
  obtain ⟨n, h⟩ := C55_outOfGas_partial hC (by decide) (fun _ _ => 7) (fun _ => 9) (demo_world _) (demo_costs _)
    gasCode_fits
    (demo_gas_run (g0 := 130) (n := 6) (k := 6) (i := 6) (c := [0, 0]) (tr := [.effect []]) (gl := 12)
      (rd := [(5, 12)]) (by decide) (by decide +kernel))
    hd (by rw [compile_prog hC]; decide +kernel)
    ⟨by rw [he.2.2.1, he.2.2.2]; decide, .inr ⟨by rw [hio]; decide, by rw [hio]; decide, by
      rw [he.2.1, hio]; show 12 < 0 + demoDyn _ 6 6 [0, 0]; rw [hdyn]; decide⟩⟩
  exact ⟨C, n, hC, h⟩

/-- After the JUMPI of `addStore`, started with 100, the compiled program has 82 left. -/
example : ∃ C n cx, compileBytes { dse := true, inspect := false } (fun _ => 3) SpecId.CANCUN 1000 addStore = some C ∧
    C.runG demoExp (demoEnv (parse (fun _ => 3) SpecId.CANCUN addStore).toProg.insts)
      (demoDyn (parse (fun _ => 3) SpecId.CANCUN addStore).toProg.insts) (fun _ _ => 7) (fun _ => 9) 100 n =
      .running 6 6 cx 82 [] ∧ Holds cx [5] := by
  obtain ⟨C, hC⟩ := compiles (o := { dse := true, inspect := false }) (g := fun _ => 3) (spec := SpecId.CANCUN)
    (limit := 1000) (bytes := addStore) (by decide +kernel)
  have hb : (6, 9) ∈ C.prog.blocks := by rw [compile_prog hC]; decide +kernel
  obtain ⟨n, cx, h1, h2, _⟩ := C55_enters_partial hC (by decide) (fun _ _ => 7) (fun _ => 9) (demo_world _)
    (demo_costs _) ⟨100, demoExp_le, by decide +kernel⟩
    (demo_gas_run (g0 := 100) (n := 6) (k := 6) (i := 6) (c := [5]) (tr := []) (gl := 82) (rd := []) (by decide)
      (by decide +kernel)) hb rfl
  exact ⟨C, n, cx, hC, h1, h2⟩

/-- `PUSH0; PUSH0; SSTORE; 0x0c`: an unknown opcode after a store. -/
example : ∃ C n, compileBytes { dse := true, inspect := true } (fun _ => 3) SpecId.CANCUN 1000
      [0x5f, 0x5f, 0x55, 0x0c] = some C ∧
    (C.runG demoExp (demoEnv (parse (fun _ => 3) SpecId.CANCUN [0x5f, 0x5f, 0x55, 0x0c]).toProg.insts)
      (demoDyn (parse (fun _ => 3) SpecId.CANCUN [0x5f, 0x5f, 0x55, 0x0c]).toProg.insts) (fun _ _ => 7) (fun _ => 9) 500 n =
      .outOfGas ∨
     ∃ cx g rd, C.runG demoExp (demoEnv (parse (fun _ => 3) SpecId.CANCUN [0x5f, 0x5f, 0x55, 0x0c]).toProg.insts)
      (demoDyn (parse (fun _ => 3) SpecId.CANCUN [0x5f, 0x5f, 0x55, 0x0c]).toProg.insts) (fun _ _ => 7) (fun _ => 9) 500 n =
      .halted 3 cx g rd) := by
  obtain ⟨C, hC⟩ := compiles (o := { dse := true, inspect := true }) (g := fun _ => 3) (spec := SpecId.CANCUN)
    (limit := 1000) (bytes := [0x5f, 0x5f, 0x55, 0x0c]) (by decide +kernel)
  have hd : (parse (fun _ => 3) SpecId.CANCUN [0x5f, 0x5f, 0x55, 0x0c]).toProg.insts[3]?.map
      (fun d => (d.stackIo, d.flags.unknown)) = some ((0, 0), true) := by decide +kernel
  obtain ⟨d, hd, he⟩ := Option.map_eq_some_iff.1 hd
  simp only [Prod.mk.injEq] at he
  have hio : d.stackIo = (0, 0) := he.1
  obtain ⟨n, h⟩ := C55_unknown_partial hC (by decide) (fun _ _ => 7) (fun _ => 9) (demo_world _) (demo_costs _)
    ⟨100, demoExp_le, by decide +kernel⟩
    (demo_gas_run (g0 := 500) (n := 3) (k := 3) (i := 3) (c := []) (tr := [.effect [0, 0]]) (gl := 394)
      (rd := [(2, 494)]) (by decide) (by decide +kernel))
    hd (.inr he.2) (by rw [hio]; decide)
  refine ⟨C, n, hC, ?_⟩
  rcases h with h | ⟨cx, g, rd, h, _⟩
  · exact .inl h
  · exact .inr ⟨cx, g, rd, h⟩

/-- `PUSH0; PUSH0; SSTORE; CALLDATASIZE; JUMP` fails with an invalid jump. -/
example : ∃ C n, compileBytes { dse := true, inspect := true } (fun _ => 3) SpecId.CANCUN 1000
      [0x5f, 0x5f, 0x55, 0x36, 0x56] = some C ∧
    C.runG demoExp (demoEnv (parse (fun _ => 3) SpecId.CANCUN [0x5f, 0x5f, 0x55, 0x36, 0x56]).toProg.insts)
      (demoDyn (parse (fun _ => 3) SpecId.CANCUN [0x5f, 0x5f, 0x55, 0x36, 0x56]).toProg.insts) (fun _ _ => 7)
      (fun _ => 9) 112 n = .invalidJump := by
  obtain ⟨C, hC⟩ := compiles (o := { dse := true, inspect := true }) (g := fun _ => 3) (spec := SpecId.CANCUN)
    (limit := 1000) (bytes := [0x5f, 0x5f, 0x55, 0x36, 0x56]) (by decide +kernel)
  have hd : (parse (fun _ => 3) SpecId.CANCUN [0x5f, 0x5f, 0x55, 0x36, 0x56]).toProg.insts[4]?.map
      (fun d => (d.opcode, d.stackIo, decide (Halts d), d.baseGas)) = some (0x56, (1, 0), false, 3) := by decide +kernel
  obtain ⟨d, hd, he⟩ := Option.map_eq_some_iff.1 hd
  simp only [Prod.mk.injEq] at he
  have hio : d.stackIo = (1, 0) := he.2.1
  have hdyn : demoDyn (parse (fun _ => 3) SpecId.CANCUN [0x5f, 0x5f, 0x55, 0x36, 0x56]).toProg.insts 4 4 [0] = 0 := by
    decide +kernel
  obtain ⟨n, h⟩ := C55_invalid_partial hC (by decide) (fun _ _ => 7) (fun _ => 9) (demo_world _) (demo_costs _)
    ⟨100, demoExp_le, by decide +kernel⟩
    (demo_gas_run (g0 := 112) (n := 4) (k := 4) (i := 4) (c := [0]) (tr := [.effect [0, 0]]) (gl := 3)
      (rd := [(2, 106)]) (by decide) (by decide +kernel)) hd
    (by simpa using he.2.2.1) (.inl (by rw [he.1]; rfl)) (by rw [hio]; decide)
    (by unfold evmNext; rw [he.1]; decide +kernel)
    (by rw [he.2.2.2, hio]; show 3 + demoDyn _ 4 4 [0] ≤ 3; rw [hdyn]; decide)
  exact ⟨C, n, hC, h⟩

/-- `PUSH0; PUSH0; SSTORE; POP` fails. -/
example : ∃ C n, compileBytes { dse := true, inspect := true } (fun _ => 3) SpecId.CANCUN 1000
      [0x5f, 0x5f, 0x55, 0x50] = some C ∧
    (C.runG demoExp (demoEnv (parse (fun _ => 3) SpecId.CANCUN [0x5f, 0x5f, 0x55, 0x50]).toProg.insts)
      (demoDyn (parse (fun _ => 3) SpecId.CANCUN [0x5f, 0x5f, 0x55, 0x50]).toProg.insts) (fun _ _ => 7) (fun _ => 9) 200 n =
      .outOfGas ∨
     ∃ f, C.runG demoExp (demoEnv (parse (fun _ => 3) SpecId.CANCUN [0x5f, 0x5f, 0x55, 0x50]).toProg.insts)
      (demoDyn (parse (fun _ => 3) SpecId.CANCUN [0x5f, 0x5f, 0x55, 0x50]).toProg.insts) (fun _ _ => 7) (fun _ => 9) 200 n =
      .stackError f) := by
  obtain ⟨C, hC⟩ := compiles (o := { dse := true, inspect := true }) (g := fun _ => 3) (spec := SpecId.CANCUN)
    (limit := 1000) (bytes := [0x5f, 0x5f, 0x55, 0x50]) (by decide +kernel)
  have hd : (parse (fun _ => 3) SpecId.CANCUN [0x5f, 0x5f, 0x55, 0x50]).toProg.insts[3]?.map
      (fun d => (d.stackIo, d.opcode)) = some ((1, 0), 0x50) := by decide +kernel
  obtain ⟨d, hd, he⟩ := Option.map_eq_some_iff.1 hd
  simp only [Prod.mk.injEq] at he
  have hio : d.stackIo = (1, 0) := he.1
  obtain ⟨n, h⟩ := C55_fails_alike_partial hC (by decide) (fun _ _ => 7) (fun _ => 9) (demo_world _) (demo_costs _)
    ⟨100, demoExp_le, by decide +kernel⟩
    (demo_gas_run (g0 := 200) (n := 3) (k := 3) (i := 3) (c := []) (tr := [.effect [0, 0]]) (gl := 94)
      (rd := [(2, 194)]) (by decide) (by decide +kernel)) hd
    (by rw [compile_prog hC]; decide +kernel) (.inl (.inl (by rw [hio]; decide)))
  refine ⟨C, n, hC, ?_⟩
  rcases h with h | h | ⟨⟨_, h⟩, _⟩
  · exact .inl h
  · exact .inr h
  · rw [he.2] at h
    exact absurd h (by decide)

/-- The compiled `addStore` ends within two blocks, so `C55_outcome_partial` speaks about it. -/
example : ∃ C, compileBytes { dse := true, inspect := false } (fun _ => 3) SpecId.CANCUN 1000 addStore = some C ∧
    (∀ b ∈ C.prog.blocks,
      highest ((((parse (fun _ => 3) SpecId.CANCUN addStore).toProg.insts.drop b.1).take (b.2 - b.1)).map (·.stackIo)) 0 -
        lowest ((((parse (fun _ => 3) SpecId.CANCUN addStore).toProg.insts.drop b.1).take (b.2 - b.1)).map (·.stackIo)) 0 ≤
        32767) ∧
    ∀ k i cx g rd, C.runG demoExp (demoEnv (parse (fun _ => 3) SpecId.CANCUN addStore).toProg.insts)
      (demoDyn (parse (fun _ => 3) SpecId.CANCUN addStore).toProg.insts) (fun _ _ => 7) (fun _ => 9) 300 2 ≠
      .running k i cx g rd := by
  have h : (compileBytes { dse := true, inspect := false } (fun _ => 3) SpecId.CANCUN 1000 addStore).map (fun C =>
      (C.runG demoExp (demoEnv (parse (fun _ => 3) SpecId.CANCUN addStore).toProg.insts)
      (demoDyn (parse (fun _ => 3) SpecId.CANCUN addStore).toProg.insts) (fun _ _ => 7) (fun _ => 9) 300 2).final) =
      some true := by decide +kernel
  obtain ⟨C, hC, h⟩ := Option.map_eq_some_iff.1 h
  refine ⟨C, hC, by rw [compile_prog hC]; decide +kernel, fun k i cx g rd hx => ?_⟩
  rw [hx] at h
  cases h

/-! ## The restriction to shallow stacks is necessary -/

/-- The instruction that ended a program. -/
def GOut.haltedAt : GOut F → Option Nat
  | .halted i _ _ _ => some i
  | _ => none

/-- C55 fails: with empty call data, `deepCode` (`Props/Flow.lean`) stops at Y in the EVM, and at X when compiled. -/
theorem C55_halts_fails : ¬ C55_halts := by
  intro h
  have h1 : (compileBytes { dse := false, inspect := false } (fun _ => 3) SpecId.CANCUN 1000 deepCode).map (fun C =>
      (C.runG demoExp (demoEnv (parse (fun _ => 3) SpecId.CANCUN deepCode).toProg.insts)
        (demoDyn (parse (fun _ => 3) SpecId.CANCUN deepCode).toProg.insts) (fun _ _ => 7) (fun _ => 9) 1000 5).haltedAt) =
      some (some 151) := by decide +kernel
  obtain ⟨C, hC, h1⟩ := Option.map_eq_some_iff.1 h1
  have hd : (parse (fun _ => 3) SpecId.CANCUN deepCode).toProg.insts[153]?.map
      (fun d => (d.opcode, d.stackIo, d.baseGas, d.flags.disabled, d.flags.unknown)) =
      some (0, (0, 0), 3, false, false) := by decide +kernel
  obtain ⟨d, hd, he⟩ := Option.map_eq_some_iff.1 hd
  simp only [Prod.mk.injEq] at he
  have hio : d.stackIo = (0, 0) := he.2.1
  have hdyn : demoDyn (parse (fun _ => 3) SpecId.CANCUN deepCode).toProg.insts 142 153 [] = 0 := by decide +kernel
  obtain ⟨n, cx, h2, _⟩ := h (List Word) (fun _ => 3) SpecId.CANCUN 1000 deepCode _ C hC (by decide +kernel) _ _ _
    (fun _ _ => 7) (fun _ => 9) (demo_world _) (demo_costs _) 1000 142 153 [] [] 574 [] d
    (demo_gas_run_any (n := 142) (by decide +kernel) (by decide +kernel)) hd (.inr (.inr (by rw [he.1]; decide)))
    (by rw [he.2.2.2.1, he.2.2.2.2]; decide) (by rw [hio]; decide)
    (by rw [he.2.2.1, hio]; show 3 + demoDyn _ 142 153 [] ≤ 574; rw [hdyn]; decide)
  have h3 : (C.runG demoExp (demoEnv (parse (fun _ => 3) SpecId.CANCUN deepCode).toProg.insts)
      (demoDyn (parse (fun _ => 3) SpecId.CANCUN deepCode).toProg.insts) (fun _ _ => 7) (fun _ => 9) 1000
      5).final = true := by
    revert h1
    generalize C.runG demoExp (demoEnv (parse (fun _ => 3) SpecId.CANCUN deepCode).toProg.insts)
      (demoDyn (parse (fun _ => 3) SpecId.CANCUN deepCode).toProg.insts) (fun _ _ => 7) (fun _ => 9) 1000 5 = x
    intro h1
    cases x <;> first | rfl | cases h1
  have := runG_final_eq h3 (by rw [h2]; rfl : (C.runG _ _ _ _ _ _ n).final = true)
  rw [this, h2] at h1
  cases h1

end Verif
